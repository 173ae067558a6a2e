import Verif.Spec.VertexNormal
import Verif.Props.MdcError
import Verif.Props.EdgeNormal
import Verif.Props.FlatDemo
import Verif.Props.DcDemo

/-! C105: vertex normals of dual meshes stay within the directions of the surface normals. -/

namespace Isomesh
open Spec

theorem foldl_within {u : Vec3 ℝ} {γ : ℝ} : ∀ (ns : List (Vec3 ℝ)), (∀ n ∈ ns, UnitWithin u γ n) → ∀ (a : Vec3 ℝ) (m : ℝ), a.length ≤ m →
    γ * m ≤ a.x * u.x + a.y * u.y + a.z * u.z → (ns.foldl Vec3.add a).length ≤ m + ns.length ∧
      γ * (m + ns.length) ≤ (ns.foldl Vec3.add a).x * u.x + (ns.foldl Vec3.add a).y * u.y + (ns.foldl Vec3.add a).z * u.z := by
  intro ns
  induction ns with
  | nil => intro _ a m h1 h2; simpa using ⟨h1, h2⟩
  | cons n ns ih =>
    intro h a m h1 h2
    obtain ⟨n1, n2⟩ := h n List.mem_cons_self
    have key : (a.add n).length ≤ m + 1 := by
      have ha := length_sq a
      have hs := length_sq (a.add n)
      simp only [Vec3.add] at hs ⊢
      have h0 := length_nonneg a
      have hc : a.x * n.x + a.y * n.y + a.z * n.z ≤ a.length := by
        refine abs_le_of_sq_le_sq' ?_ h0 |>.2
        rw [ha]
        nlinarith [sq_nonneg (a.x * n.y - a.y * n.x), sq_nonneg (a.x * n.z - a.z * n.x), sq_nonneg (a.y * n.z - a.z * n.y)]
      refine le_trans ?_ (show a.length + 1 ≤ m + 1 by linarith)
      refine abs_le_of_sq_le_sq' ?_ (by linarith) |>.2
      rw [hs]
      nlinarith
    have := ih (fun k hk => h k (List.mem_cons_of_mem _ hk)) (a.add n) (m + 1) key (by simp only [Vec3.add]; nlinarith)
    rw [List.foldl_cons, List.length_cons]
    push_cast
    rw [show m + ((ns.length : ℝ) + 1) = m + 1 + ns.length by ring]
    exact this

/-- The normalised sum of unit vectors within a direction is within this direction. -/
theorem normalize_within {normalize : Vec3 ℝ → Vec3 ℝ} (ht : TrueNormalize normalize) {u : Vec3 ℝ} {γ : ℝ} (hγ : 0 < γ) {ns : List (Vec3 ℝ)}
    (hne : ns ≠ []) (h : ∀ n ∈ ns, UnitWithin u γ n) : UnitWithin u γ (normalize (ns.foldl Vec3.add ⟨0, 0, 0⟩)) := by
  obtain ⟨h1, h2⟩ := foldl_within ns h ⟨0, 0, 0⟩ 0 (by simp [Vec3.length, elem_sqrt]) (by simp)
  set s := ns.foldl Vec3.add (⟨0, 0, 0⟩ : Vec3 ℝ)
  rw [zero_add] at h1 h2
  have hN : (0 : ℝ) < ns.length := by exact_mod_cast List.length_pos_iff.2 hne
  have hs0 : s ≠ ⟨0, 0, 0⟩ := by
    intro h0
    rw [h0] at h2
    simp only [zero_mul, add_zero] at h2
    nlinarith [mul_pos hγ hN]
  have hsq := length_sq s
  have hpos : 0 < s.length := by
    rcases (length_nonneg s).lt_or_eq with h | h
    · exact h
    · exfalso
      rw [← h] at hsq
      have hx : s.x = 0 := by nlinarith [sq_nonneg s.x, sq_nonneg s.y, sq_nonneg s.z]
      have hy : s.y = 0 := by nlinarith [sq_nonneg s.x, sq_nonneg s.y, sq_nonneg s.z]
      have hz : s.z = 0 := by nlinarith [sq_nonneg s.x, sq_nonneg s.y, sq_nonneg s.z]
      exact hs0 (Vec3.ext hx hy hz)
  rw [ht s hs0]
  constructor
  · simp only
    field_simp
    linarith
  · simp only
    have e : s.x / s.length * u.x + s.y / s.length * u.y + s.z / s.length * u.z = (s.x * u.x + s.y * u.y + s.z * u.z) / s.length := by ring
    rw [e, le_div_iff₀ hpos]
    exact (mul_le_mul_of_nonneg_left h1 hγ.le).trans h2

section
variable {env : DcEnv ℝ} {g : Grid ℝ} {options : Qef ℝ 3}

/-- What a leaf stores. -/
def NormalLeaf (env : DcEnv ℝ) (g : Grid ℝ) (x : Cube × DcLeaf ℝ) : Prop :=
  x.2.homogeneous = false → ∃ D, x.2.dual = some D ∧ ∀ u γ, 0 < γ → NormalsWithin env.eps g x.1 u γ → UnitWithin u γ D.normal

theorem stored_within (he : 0 < env.eps) (ht : TrueNormalize env.normalize) {u : Vec3 ℝ} {γ : ℝ} (hγ : 0 < γ) {es : List (GridEdge ℝ)} (hne : es ≠ [])
    (h : ∀ e ∈ es, γ ≤ (edgeNormal env.eps e.gradient).x * u.x + (edgeNormal env.eps e.gradient).y * u.y + (edgeNormal env.eps e.gradient).z * u.z) :
    UnitWithin u γ (env.normalize ((es.map fun e => edgeNormal env.eps e.gradient).foldl Vec3.add ⟨0, 0, 0⟩)) := by
  refine normalize_within ht hγ (by simpa using hne) fun n hn => ?_
  obtain ⟨e, hm, rfl⟩ := List.mem_map.1 hn
  exact ⟨C40_unit he _, h e hm⟩

theorem normal_node (he : 0 < env.eps) (ht : TrueNormalize env.normalize) (hF : Filled g) {epsilon : ℝ} {simplify : Bool} :
    ∀ (k depth : Nat) (lo : IVec3) (q q' : Qef ℝ 3) (t : DcNode ℝ), CubeIn g.maxCoord ⟨lo, k⟩ →
    dcBuildNode env g epsilon simplify k depth lo q = some (q', t) → ∀ x ∈ (locate t ⟨lo, k⟩).leaves, NormalLeaf env g x := by
  intro k
  induction k with
  | zero =>
    intro depth lo q q' t hin hb
    rw [dcBuildNode] at hb
    obtain ⟨corners, es, q1, ms, h1, h2, h3, h4, h5, h6, h7, h8, h9, h11, h12, h10⟩ := dcBuildLeaf_eq (env := env) hF (cubeIn_cell hin) depth q
    rw [h10] at hb
    split at hb
    · rename_i hne
      simp only [Option.bind_eq_bind, Option.bind_eq_some_iff] at hb
      obtain ⟨qv, hv, qs, hqs, hb⟩ := hb
      cases hb
      intro x hx hf'
      simp only [locate, Oct.leaves, List.mem_singleton] at hx
      subst hx
      refine ⟨_, rfl, fun u γ hγ hc => ?_⟩
      exact stored_within he ht hγ hne fun e hm => hc lo (by simp [Cube.Has, Cube.side]) e ((h4 e).1 hm).1 ((h4 e).1 hm).2
    · rename_i hne
      cases hb
      intro x hx hf'
      simp only [locate, Oct.leaves, List.mem_singleton] at hx
      subst hx
      have := (homogeneous_iff (g := g) (c := ⟨lo, 0⟩) (l := ⟨depth, corners, none, none⟩) h1).2 (fun hh => hne (h5.2 hh))
      rw [this] at hf'
      cases hf'
  | succ k ih =>
    intro depth lo q q' t hin hb
    have hok := dcBuildNode_ok hF _ _ _ _ _ _ hin hb
    rw [dcBuildNode] at hb
    split at hb
    · cases hb
    rename_i q1 ch hch
    obtain ⟨-, hch⟩ := threadM_spec (fun _ => True) 8 _ (fun i s s' a hs hb => trivial) trivial hch
    have hkid : ∀ i, ∀ x ∈ (locate (ch i) ⟨octCorner lo (2 ^ k) i, k⟩).leaves, NormalLeaf env g x := by
      intro i
      obtain ⟨a, a', -, hi⟩ := hch i
      rw [childCorner_eq] at hi
      exact ih _ _ _ _ _ (cubeIn_octant hin i) hi
    have hinner : ∀ x ∈ (locate (Oct.inner depth ch : DcNode ℝ) ⟨lo, k + 1⟩).leaves, NormalLeaf env g x := by
      intro x hx
      simp only [locate, Oct.leaves] at hx
      obtain ⟨i, -, hx⟩ := List.mem_flatMap.1 hx
      exact hkid i x hx
    unfold dcTryCollapse at hb
    split at hb
    · cases hb; exact hinner
    rename_i l hl
    split at hb
    · rename_i hh
      cases hb
      intro x hx hf'
      simp only [locate, Oct.leaves, List.mem_singleton] at hx
      subst hx
      obtain ⟨d, hd, -⟩ := hok.1.dual hf'
      cases hd
    rename_i hnh
    split at hb
    swap
    · cases hb; exact hinner
    split at hb
    swap
    · cases hb; exact hinner
    simp only [dcFit, Option.bind_eq_bind, Option.bind_eq_some_iff] at hb
    obtain ⟨qa, ha, qv, hv, err, he', hb⟩ := hb
    split at hb
    · cases hb; exact hinner
    obtain ⟨qs, hqs, hb⟩ := Option.bind_eq_some_iff.1 hb
    cases hb
    have hl' := dcLeafChildren_some hl
    have hleaf : ∀ i, NormalLeaf env g (⟨octCorner lo (2 ^ k) i, k⟩, l i) := by
      intro i
      have b := hkid i
      rw [hl' i] at b
      exact b _ (by simp [locate, Oct.leaves])
    obtain ⟨-, r2⟩ := dcMerge_run _ _ _ _ ha
    intro x hx hf'
    simp only [locate, Oct.leaves, List.mem_singleton] at hx
    subst hx
    refine ⟨_, rfl, fun u γ hγ hc => ?_⟩
    dsimp only
    rw [r2]
    refine normalize_within ht hγ ?_ fun n hn => ?_
    · have : ∃ i, (l i).homogeneous = false := by
        by_contra hcon
        exact hnh fun i => by
          cases hh : (l i).homogeneous with
          | true => rfl
          | false => exact absurd ⟨i, hh⟩ hcon
      obtain ⟨i, hi⟩ := this
      obtain ⟨D, hD, -⟩ := hleaf i hi
      have hm : D.normal ∈ crossedNormals l (List.finRange 8) := by
        unfold crossedNormals
        exact List.mem_filterMap.2 ⟨i, List.mem_finRange i, by rw [if_neg (by rw [hi]; decide)]; dsimp only at hD; rw [hD]; rfl⟩
      exact List.ne_nil_of_mem hm
    · unfold crossedNormals at hn
      obtain ⟨i, -, hi⟩ := List.mem_filterMap.1 hn
      split at hi
      · cases hi
      rename_i hh
      obtain ⟨D, hD, hw⟩ := hleaf i (by simpa using hh)
      dsimp only at hD
      rw [hD] at hi
      cases hi
      refine hw u γ hγ fun P hP e hm hP' => hc P ?_ e hm hP'
      exact cubeSub_has (octant_sub i) hP

/-- C105 (dual contouring without an octree).  If the stored normals of all crossings of a cell have components of at least `γ > 0` along `u`, the
normal of the vertex of the cell is a unit vector with a component of at least `γ` along `u`. -/
theorem C105_uniform (he : 0 < env.eps) (ht : TrueNormalize env.normalize) (hF : Filled g) (hsort : IsSort env.srt) {solver q : Qef ℝ 3}
    (hpinv : 0 < solver.pinvTolerance) {r : PlacedMesh ℝ} (hr : dualContouring env g solver = some (q, r)) {cells : List IVec3}
    (hcells : CellList g cells) {k : Nat} {P : IVec3} (hP : cells[k]? = some P) {v : MeshVertex ℝ} (hv : r.mesh.vertices[k]? = some v) :
    ∀ u γ, 0 < γ → NormalsWithin env.eps g ⟨P, 0⟩ u γ → UnitWithin u γ v.normal := by
  intro u γ hγ hc
  obtain ⟨-, q', r', hr', -, -, -, hall⟩ := C18_vertices (env := env) hF hsort hpinv
  rw [hr] at hr'; cases hr'
  obtain ⟨v', hv', hd⟩ := (hall cells hcells).2 k P hP
  rw [hv] at hv'; cases hv'
  obtain ⟨es, q0, q1, q2, x, -, hes, -, -, -, -, hn⟩ := hd.solution
  rw [hn]
  refine stored_within he ht hγ ?_ fun e hm => hc P (by simp [Cube.Has, Cube.side]) e ((hes e).1 hm).1 ((hes e).1 hm).2
  obtain ⟨-, D, p, hcr, hep⟩ := (hcells.mem P).1 (List.mem_of_getElem? hP)
  obtain ⟨e, hem, hel⟩ := (hF.edge_iff _ _).2 hcr
  have hax := hF.edge_axis _ _ hem
  refine List.ne_nil_of_mem ((hes e).2 ⟨?_, by rw [hax, hel]; exact hep⟩)
  rw [mem_edgeList hF, hax]; exact hem

/-- C105 (DC octree).  The same for the leaf of every vertex, however many levels it was merged from. -/
theorem C105_dc_octree (he : 0 < env.eps) (ht : TrueNormalize env.normalize) (hF : Filled g) {o o' o'' : DcOctree ℝ} {q' : Qef ℝ 3}
    {epsilon : ℝ} {simplify : Bool} (hin : CubeIn g.maxCoord (rootCube o.level)) (hb : o.build env g options epsilon simplify = some (q', o'))
    {r : PlacedMesh ℝ} (hc : o'.contour = some (r, o'')) :
    List.Forall₂ (fun (c : Cube) (v : MeshVertex ℝ) => ∀ u γ, 0 < γ → NormalsWithin env.eps g c u γ → UnitWithin u γ v.normal)
      ((leafCubes o'.root (rootCube o.level)).filter fun c => decide (Hetero g c)) r.mesh.vertices := by
  obtain ⟨htree, -⟩ := build_ok hF hin hb
  have hleaf' : ∀ x ∈ (locate o'.root (rootCube o.level)).leaves, NormalLeaf env g x := by
    have hin' := hin
    rw [← rootCube_eq] at hin' ⊢
    unfold DcOctree.build at hb
    split at hb
    · cases hb
    rename_i q root hn'
    cases hb
    exact normal_node he ht hF _ _ _ _ _ _ hin' hn'
  have hk : (rootCube o.level).k ≤ 10 := by rw [rootCube_k]; exact level_le hF hin
  obtain ⟨vs, o1, visits, a1, -, -, a4, -⟩ := contour_eq htree hk
  rw [a1] at hc
  cases hc
  have hleaf := treeOK_leaf htree
  have e1 : crossedLeaves o'.root.leaves = ((locate o'.root (rootCube o.level)).leaves.filter fun x => !x.2.homogeneous).map (·.2) := by
    rw [← leaves_locate o'.root (rootCube o.level), crossedLeaves, List.filter_map]; rfl
  have e2 : ((leafCubes o'.root (rootCube o.level)).filter fun c => decide (Hetero g c)) =
      ((locate o'.root (rootCube o.level)).leaves.filter fun x => !x.2.homogeneous).map (·.1) := by
    rw [leafCubes, List.filter_map]
    congr 1
    apply List.filter_congr
    intro x hx
    have := homogeneous_iff (hleaf x hx).1.corners
    by_cases b : Hetero g x.1
    · have : x.2.homogeneous = false := by rw [hetero_false, this]; simpa using b
      simp [this, b]
    · simp [this.2 b, b]
  rw [e1, List.forall₂_map_left_iff] at a4
  rw [e2, List.forall₂_map_left_iff]
  have a5 : List.Forall₂ (fun x v => x ∈ (locate o'.root (rootCube o.level)).leaves.filter (fun x => !x.2.homogeneous) ∧ LeafVertex x.2 v)
      ((locate o'.root (rootCube o.level)).leaves.filter fun x => !x.2.homogeneous) vs := by
    have := List.forall₂_iff_get.1 a4
    exact List.forall₂_iff_get.2 ⟨this.1, fun i h1 h2 => ⟨List.get_mem _ _, this.2 i h1 h2⟩⟩
  refine a5.imp ?_
  rintro x v ⟨hx, d, hd, rfl⟩
  obtain ⟨hx, hf⟩ := List.mem_filter.1 hx
  obtain ⟨D', k1, k4⟩ := hleaf' x hx (by simpa using hf)
  rw [hd] at k1; cases k1
  exact k4

theorem fit_normal (he : 0 < env.eps) (ht : TrueNormalize env.normalize) (hF : Filled g) {u : Vec3 ℝ} {γ : ℝ} (hγ : 0 < γ)
    {c : Cube} {X : Set CellCrossing} {w : FitVertex ℝ} (h : VertexFit env g options c X w) :
    (∀ x ∈ X, ∀ e ∈ edgeList g, e.axis = x.axis → e.lesser = x.at_ →
      γ ≤ (edgeNormal env.eps e.gradient).x * u.x + (edgeNormal env.eps e.gradient).y * u.y + (edgeNormal env.eps e.gradient).z * u.z) →
    UnitWithin u γ w.normal := by
  induction h with
  | @cell P X w es q1 ps h1 h2 h3 h4 h5 h6 h7 h8 h9 =>
    intro hc
    rw [h6]
    obtain ⟨x, hx, hX⟩ := h1
    obtain ⟨hcell, hcr, -⟩ := (hX x).1 hx
    obtain ⟨e, hem, hel⟩ := (hF.edge_iff _ _).2 hcr.1
    have hax := hF.edge_axis _ _ hem
    have heL : e ∈ edgeList g := by rw [mem_edgeList hF, hax]; exact hem
    refine stored_within he ht hγ ?_ fun e hm => hc _ ((h3 e).1 hm).2 e ((h3 e).1 hm).1 rfl rfl
    refine List.ne_nil_of_mem ((h3 e).2 ⟨heL, ?_⟩)
    have : (⟨P, e.axis, e.lesser⟩ : CellCrossing) = x := by
      rw [hax, hel, ← hcell]; rfl
    rw [this]; exact hx
  | @node c X w kids q1 h1 h2 h3 h4 h5 h6 h7 h8 h9 ih =>
    intro hc
    rw [h8]
    refine normalize_within ht hγ (by simpa using h1) fun n hn => ?_
    obtain ⟨k, hk, rfl⟩ := List.mem_map.1 hn
    exact ih k hk fun x hx => hc x ((h5 x).2 ⟨k, hk, hx⟩)

/-- C105 (MDC octree).  The normals of all crossings that a vertex stands for. -/
theorem C105_mdc_octree (he : 0 < env.eps) (ht : TrueNormalize env.normalize) (hF : Filled g) {o o' o1 o2 : MdcOctree ℝ} {q' : Qef ℝ 3}
    (hlev : o.level ≤ 9) (hsc : o.globalScale ≠ 0) (hin : CubeIn g.maxCoord (rootCube o.level)) (hb : o.build env g options = some (q', o'))
    {bounds : List ℝ} (h1 : contourAll o' bounds = some o1) {ε : ℝ} {r : PlacedMesh ℝ} (h2 : o1.contour ε = some (r, o2)) :
    ∃ V : CellCrossing → Nat, MdcMesh g (rootCube o.level) V r.mesh ∧ ∀ (n : Nat) v, r.mesh.vertices[n]? = some v → ∀ u γ, 0 < γ →
      (∀ x : CellCrossing, x.In g (rootCube o.level) → V x = n → ∀ e ∈ edgeList g, e.axis = x.axis → e.lesser = x.at_ →
        γ ≤ (edgeNormal env.eps e.gradient).x * u.x + (edgeNormal env.eps e.gradient).y * u.y + (edgeNormal env.eps e.gradient).z * u.z) →
      UnitWithin u γ v.normal := by
  obtain ⟨M, V, hS, hall⟩ := C28_contour hF hin (C28_sizes g hlev) (mul_self_pos.2 hsc) hb
  obtain ⟨o1', e1, e2⟩ := hall bounds
  rw [h1] at e1; cases e1
  obtain ⟨o2', e3⟩ := e2 ε
  rw [h2] at e3; cases e3
  refine ⟨V ε, hS.mesh ε, fun n v hv u γ hγ hc => ?_⟩
  obtain ⟨c, w, hd, hfit, rfl, -⟩ := hS.fit ε n v hv
  exact fit_normal he ht hF hγ hfit fun x hx => hc x hx.1 hx.2

end
/-- C105 on a concrete case: the octree over a tilted plane, merged or not (any bound): all hypotheses are met, for the direction of the stored normals
and `γ = 1`; so every vertex of the mesh has exactly this normal. -/
example (srt : List (DcEntry ℝ) → List (DcEntry ℝ)) (epsilon : ℝ) : ∃ (g : Grid ℝ) (env : DcEnv ℝ) (o o' o'' : DcOctree ℝ) (q' : Qef ℝ 3) (r : PlacedMesh ℝ),
    0 < env.eps ∧ TrueNormalize env.normalize ∧ Filled g ∧ CubeIn g.maxCoord (rootCube o.level) ∧
    o.build env g Qef.new3 epsilon true = some (q', o') ∧ o'.contour = some (r, o'') ∧ edgeList g ≠ [] ∧
    (∀ c, NormalsWithin env.eps g c (edgeNormal env.eps ⟨1, 1, 1⟩) 1) ∧
    (∀ v ∈ r.mesh.vertices, v.normal = edgeNormal env.eps ⟨1, 1, 1⟩) := by
  obtain ⟨g, hg⟩ : ∃ g0, Grid.mk' 2 (⟨0, 0, 0⟩ : Vec3 ℝ) 1 = .ok g0 := ⟨_, rfl⟩
  have hre : g.Reachable := .mk hg
  have hgp : g.globalPos = ⟨0, 0, 0⟩ ∧ g.step = 1 ∧ g.maxCoord = 1 := by
    cases hg; exact ⟨rfl, rfl, rfl⟩
  have hprop : ProperField tiltField := oneMaterial_proper tilt_material
  obtain ⟨g', hfill, ⟨hsz, hhf, hpos, hst⟩, hat⟩ := C06_fill_materials hre tiltField (regulaFalsiFinder 0 16)
  have hF := C07_filled hre hprop hfill
  have hm' : g'.maxCoord = 1 := by rw [← hgp.2.2]; exact hhf
  have hin := cubeIn_demo hm'
  have hp : 0 < (Qef.new3 : Qef ℝ 3).pinvTolerance := by simp only [Qef.new3]; norm_num
  let env : DcEnv ℝ := ⟨1 / 2 ^ 23, 1 / 2 ^ 126, fun v => ⟨v.x / v.length, v.y / v.length, v.z / v.length⟩, srt⟩
  have he : 0 < env.eps := by show (0 : ℝ) < 1 / 2 ^ 23; norm_num
  have ht : TrueNormalize env.normalize := fun v _ => rfl
  let o : DcOctree ℝ := ⟨1, ⟨0, 0, 0⟩, 1, .leaf ⟨0, fun _ => .Empty, none, none⟩⟩
  obtain ⟨q', o', r, o'', hb, -, hc⟩ := C22_completes (env := env) hF o epsilon (simplify := true) hin hp (Or.inr (by decide))
  have hu := C40_unit he (⟨1, 1, 1⟩ : Vec3 ℝ)
  have hgr : ∀ e ∈ edgeList g', e.gradient = ⟨1, 1, 1⟩ := by
    intro e hm
    exact (plane_edge hre (by rw [hgp.2.1]; norm_num) tilt_plane hprop hfill hm).1
  have hw : ∀ c, NormalsWithin env.eps g' c (edgeNormal env.eps ⟨1, 1, 1⟩) 1 := by
    intro c P _ e hm _
    rw [hgr e hm]
    linarith
  refine ⟨g', env, o, o', o'', q', r, he, ht, hF, hin, hb, hc, ?_, hw, ?_⟩
  · have hcr : CrossingEdge g' .X ⟨0, 0, 0⟩ := by
      refine ⟨by rw [hm']; decide, ?_⟩
      rw [solidAt_fill hre hprop hfill (by rw [hm']; decide), solidAt_fill hre hprop hfill (by rw [hm']; decide), hgp.1, hgp.2.1]
      intro hd
      replace hd := decide_eq_decide.1 hd
      simp only [tiltField, worldPos, edgeEnd, shift] at hd
      norm_num at hd
    obtain ⟨e, he', -⟩ := (hF.edge_iff _ _).2 hcr
    have hax := hF.edge_axis _ _ he'
    exact List.ne_nil_of_mem ((mem_edgeList hF).2 (by rw [hax]; exact he'))
  · intro v hv
    have h2 := C105_dc_octree he ht hF hin hb hc
    obtain ⟨i, hi, rfl⟩ := List.mem_iff_getElem.1 hv
    obtain ⟨hl, hall⟩ := List.forall₂_iff_get.1 h2
    obtain ⟨k1, k2⟩ := hall i (by omega) hi _ 1 one_pos (hw _)
    simp only [List.get_eq_getElem] at k1 k2
    set w := r.mesh.vertices[i].normal
    set n := edgeNormal env.eps (⟨1, 1, 1⟩ : Vec3 ℝ)
    have : (w.x - n.x) ^ 2 + (w.y - n.y) ^ 2 + (w.z - n.z) ^ 2 ≤ 0 := by nlinarith
    have hx : w.x - n.x = 0 := by nlinarith [sq_nonneg (w.x - n.x), sq_nonneg (w.y - n.y), sq_nonneg (w.z - n.z)]
    have hy : w.y - n.y = 0 := by nlinarith [sq_nonneg (w.x - n.x), sq_nonneg (w.y - n.y), sq_nonneg (w.z - n.z)]
    have hz : w.z - n.z = 0 := by nlinarith [sq_nonneg (w.x - n.x), sq_nonneg (w.y - n.y), sq_nonneg (w.z - n.z)]
    exact Vec3.ext (by linarith) (by linarith) (by linarith)

end Isomesh
