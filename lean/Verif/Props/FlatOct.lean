import Verif.Props.Flat
import Verif.Props.AccuracyOct
import Verif.Props.DcCollapse

/-! C70: flat surfaces are reproduced exactly (DC octree). -/

namespace Isomesh

open Spec Set

section
variable {g g' : Grid ℝ} {f : ScalarField ℝ} {n : Vec3 ℝ} {d nan : ℝ} {steps : Int}

/-- What a leaf of an octree over a plane stores. -/
def FlatLeaf (env : DcEnv ℝ) (g : Grid ℝ) (n : Vec3 ℝ) (d s : ℝ) (x : Cube × DcLeaf ℝ) : Prop :=
  x.2.homogeneous = false → ∃ D, x.2.dual = some D ∧
    FlatS (planeRow env g n d s) x.1.lo.toReal.toVecN (upperCorner x.1.lo x.1.k).toReal.toVecN (12 * 8 ^ x.1.k) D.qef ∧
    (∑ i : Fin 3, planeRow env g n d s i.castSucc * D.vertex.toVecN i = planeRow env g n d s (Fin.last 3)) ∧
    (TrueNormalize env.normalize → D.normal = unitVec n)

theorem flat_leaf (hg : g.Reachable) (hstep : 0 < g.step) (hf : PlaneField f n d) (hp : ProperField f)
    (h : g.fill f (regulaFalsiFinder nan steps) = some g') {env : DcEnv ℝ} (hn : GoodDirection env n) {s : ℝ} (hs : 0 < s)
    (hs' : edgeNormal env.eps n = ⟨s * n.x, s * n.y, s * n.z⟩) {lo : IVec3} (hin : CellIn g'.maxCoord lo) {depth : Nat} {q q' : Qef ℝ 3}
    {t : DcNode ℝ} (hb : dcBuildLeaf env g' depth lo q = some (q', t)) : ∀ x ∈ (locate t ⟨lo, 0⟩).leaves, FlatLeaf env g' n d s x := by
  have hF := C07_filled hg hp h
  have hw := planeRow_flat (g := g') hn hf hs hs'
  obtain ⟨corners, es, q1, ms, h1, h2, h3, h4, h5, h6, h7, h8, h9, h11, h12, h10⟩ := dcBuildLeaf_eq (env := env) hF hin depth q
  rw [h10] at hb
  split at hb
  · rename_i hne
    simp only [Option.bind_eq_bind, Option.bind_eq_some_iff] at hb
    obtain ⟨qv, hv, qs, hqs, hb⟩ := hb
    cases hb
    intro x hx hf'
    simp only [locate, Oct.leaves, List.mem_singleton] at hx
    subst hx
    have hfq := flat_cell_run hg hstep hf hp h hn hs hs' h2 (fun e he => (h4 e).1 he) h6
    unfold dcSolveBox at hv
    have e1 : lo.toReal.toVecN = cellLo lo := (upper_eq (K := ℝ) lo 0).1
    have e2 : ((upperCorner lo 0).toReal.toVecN : VecN ℝ 3) = cellHi lo := by rw [(upper_eq (K := ℝ) lo 0).2]; simp [cellHi]
    rw [e1, e2] at hv
    obtain ⟨k1, k2, -⟩ := flatQ_solve hn.tiny_pos hw hfq hv
    have k3 := (flatQ_state hn.tiny_pos hw k1 hqs).2
    refine ⟨_, rfl, ?_, ?_, ?_⟩
    · dsimp only
      rw [e1, e2]
      exact k3.mono (fun _ => le_refl _) (fun _ => le_refl _) (by simpa using h3)
    · dsimp only
      rw [toVecN_ofVecN]; exact k2
    · intro htn
      dsimp only
      have hpos : 0 < es.length := List.length_pos_iff.2 hne
      rw [foldl_add_const es _ (m := ⟨s * n.x, s * n.y, s * n.z⟩) fun e he => by
        rw [(plane_edge hg hstep hf hp h ((h4 e).1 he).1).1, hs']]
      have := normalize_smul htn hf.nonzero (t := es.length * s) (by positivity)
      rw [← this]
      simp only [zero_add, mul_assoc]
  · rename_i hne
    cases hb
    intro x hx hf'
    simp only [locate, Oct.leaves, List.mem_singleton] at hx
    subst hx
    have := (homogeneous_iff (g := g') (c := ⟨lo, 0⟩) (l := ⟨depth, corners, none, none⟩) h1).2 (fun hh => hne (h5.2 hh))
    rw [this] at hf'
    cases hf'

/-- The boxes of the octants are in the box of the cube. -/
theorem octant_box (lo : IVec3) (k : Nat) (i : Fin 8) (j : Fin 3) :
    (lo.toReal : Vec3 ℝ).toVecN j ≤ (octCorner lo (2 ^ k) i).toReal.toVecN j ∧
      (upperCorner (octCorner lo (2 ^ k) i) k).toReal.toVecN j ≤ ((upperCorner lo (k + 1)).toReal : Vec3 ℝ).toVecN j := by
  rw [(upper_eq lo 0).1, (upper_eq _ 0).1, (upper_eq _ _).2, (upper_eq _ _).2]
  have hk : (0 : ℝ) ≤ 2 ^ k := by positivity
  fin_cases i <;> fin_cases j <;>
    simp [octCorner, octOff, pow_succ] <;> linarith

/-- Joint system of the children. -/
theorem flat_merge {w : Fin 4 → ℝ} {env : DcEnv ℝ} (ht : 0 < env.tiny) (hw : FlatRow (d := 3) env.tiny w) {lo hi : VecN ℝ 3} {l : Fin 8 → DcLeaf ℝ} {B : Nat}
    (hl : ∀ i, (l i).homogeneous = false → ∃ D, (l i).dual = some D ∧ FlatS w lo hi B D.qef) (hB : 8 * B < 2 ^ 32) {q q1 : Qef ℝ 3}
    (hr : runOps qef3Rows 30 env.tiny q (.reset :: (crossedStates l (List.finRange 8)).map .merge) = some q1) :
    FlatQ qef3Rows w lo hi (8 * B) q1 := by
  rw [runOps, List.foldlM_cons] at hr
  simp only [QefOp.apply, Option.bind_eq_bind, Option.bind_some] at hr
  have hlen : (crossedStates l (List.finRange 8)).length ≤ 8 := by
    have := List.length_filterMap_le (fun i => if (l i).homogeneous then none else (l i).dual.map (·.qef)) (List.finRange 8)
    simpa [crossedStates] using this
  have hsum : ((crossedStates l (List.finRange 8)).map fun _ => B).sum = (crossedStates l (List.finRange 8)).length * B := by
    simp
  have hle : (crossedStates l (List.finRange 8)).length * B ≤ 8 * B := Nat.mul_le_mul_right _ hlen
  have := flatQ_run_merges ht hw (M := qef3Rows) (lo := lo) (hi := hi) (bits := 30) (by decide) (crossedStates l (List.finRange 8)) (fun s => s)
    (fun _ => B) (by
      intro s hs
      simp only [crossedStates, List.mem_filterMap] at hs
      obtain ⟨i, -, hi⟩ := hs
      split at hi
      · cases hi
      · rename_i hh
        obtain ⟨D, e1, e2⟩ := hl i (by simpa using hh)
        rw [e1] at hi; cases hi
        exact e2) (flatQ_reset qef3Rows w lo hi q) (by omega) hr
  rw [zero_add, hsum] at this
  exact ⟨this.inv, this.rows, this.mass.mono (fun _ => le_refl _) (fun _ => le_refl _) hle⟩

theorem flat_node (hg : g.Reachable) (hstep : 0 < g.step) (hf : PlaneField f n d) (hp : ProperField f)
    (h : g.fill f (regulaFalsiFinder nan steps) = some g') {env : DcEnv ℝ} (hn : GoodDirection env n) {s : ℝ} (hs : 0 < s)
    (hs' : edgeNormal env.eps n = ⟨s * n.x, s * n.y, s * n.z⟩) {epsilon : ℝ} {simplify : Bool} : ∀ (k depth : Nat) (lo : IVec3)
    (q q' : Qef ℝ 3) (t : DcNode ℝ), CubeIn g'.maxCoord ⟨lo, k⟩ → simplify = false ∨ k ≤ 9 →
    dcBuildNode env g' epsilon simplify k depth lo q = some (q', t) → ∀ x ∈ (locate t ⟨lo, k⟩).leaves, FlatLeaf env g' n d s x := by
  have hF := C07_filled hg hp h
  have hw := planeRow_flat (g := g') hn hf hs hs'
  intro k
  induction k with
  | zero => intro depth lo q q' n hin _ hb; exact flat_leaf hg hstep hf hp h hn hs hs' (cubeIn_cell hin) hb
  | succ k ih =>
    intro depth lo q q' t hin hk hb
    have hok := dcBuildNode_ok hF _ _ _ _ _ _ hin hb
    rw [dcBuildNode] at hb
    split at hb
    · cases hb
    rename_i q1 ch hch
    obtain ⟨-, hch⟩ := threadM_spec (fun _ => True) 8 _ (fun i s s' a hs hb => trivial) trivial hch
    have hkid : ∀ i, TreeOK g' (ch i) ⟨octCorner lo (2 ^ k) i, k⟩ (depth + 1) ∧
        ∀ x ∈ (locate (ch i) ⟨octCorner lo (2 ^ k) i, k⟩).leaves, FlatLeaf env g' n d s x := by
      intro i
      obtain ⟨a, a', -, hi⟩ := hch i
      rw [childCorner_eq] at hi
      exact ⟨dcBuildNode_ok hF _ _ _ _ _ _ (cubeIn_octant hin i) hi, ih _ _ _ _ _ (cubeIn_octant hin i) (hk.imp id fun h => by omega) hi⟩
    have hinner : ∀ x ∈ (locate (Oct.inner depth ch : DcNode ℝ) ⟨lo, k + 1⟩).leaves, FlatLeaf env g' n d s x := by
      intro x hx
      simp only [locate, Oct.leaves] at hx
      obtain ⟨i, -, hx⟩ := List.mem_flatMap.1 hx
      exact (hkid i).2 x hx
    unfold dcTryCollapse at hb
    split at hb
    · cases hb; exact hinner
    rename_i l hl
    split at hb
    · rename_i hh
      cases hb
      intro x hx hf'
      simp only [locate, Oct.leaves, List.mem_singleton] at hx
      subst hx
      obtain ⟨d, hd, -⟩ := hok.1.dual hf'
      cases hd
    rename_i hnh
    split at hb
    swap
    · cases hb; exact hinner
    rename_i hsim
    split at hb
    swap
    · cases hb; exact hinner
    simp only [dcFit, Option.bind_eq_bind, Option.bind_eq_some_iff] at hb
    obtain ⟨qa, ha, qv, hv, err, he, hb⟩ := hb
    split at hb
    · cases hb; exact hinner
    obtain ⟨qs, hqs, hb⟩ := Option.bind_eq_some_iff.1 hb
    cases hb
    have hl' := dcLeafChildren_some hl
    have hleaf : ∀ i, FlatLeaf env g' n d s (⟨octCorner lo (2 ^ k) i, k⟩, l i) := by
      intro i
      apply (hkid i).2
      rw [hl' i]
      simp [locate, Oct.leaves]
    obtain ⟨r1, r2⟩ := dcMerge_run _ _ _ _ ha
    have hk9 : k + 1 ≤ 9 := by
      rcases hk with hk | hk
      · rw [hk] at hsim; cases hsim
      · exact hk
    have hB2 : 8 * (12 * 8 ^ k) < 2 ^ 32 := by
      have : 8 ^ k ≤ 8 ^ 8 := Nat.pow_le_pow_right (by norm_num) (by omega)
      omega
    have hfq : FlatQ qef3Rows (planeRow env g' n d s) lo.toReal.toVecN (upperCorner lo (k + 1)).toReal.toVecN (8 * (12 * 8 ^ k)) qa.1 := by
      refine flat_merge hn.tiny_pos hw (l := l) ?_ hB2 (q := q1) ?_
      · intro i hi
        obtain ⟨D, e1, e2, -⟩ := hleaf i hi
        exact ⟨D, e1, e2.mono (fun j => (octant_box lo k i j).1) (fun j => (octant_box lo k i j).2) (le_refl _)⟩
      · rw [runOps, List.foldlM_cons]
        exact r1
    obtain ⟨k1, k2, -⟩ := flatQ_solve hn.tiny_pos hw hfq hv
    have k3 := (flatQ_state hn.tiny_pos hw k1 hqs).2
    intro x hx hf'
    simp only [locate, Oct.leaves, List.mem_singleton] at hx
    subst hx
    refine ⟨_, rfl, ?_, ?_, ?_⟩
    · exact k3.mono (fun _ => le_refl _) (fun _ => le_refl _) (by dsimp only; rw [pow_succ]; omega)
    · dsimp only
      rw [toVecN_ofVecN]; exact k2
    · intro htn
      dsimp only
      rw [r2]
      have hall : ∀ v ∈ crossedNormals l (List.finRange 8), v = unitVec n := by
        intro v hv'
        simp only [crossedNormals, List.mem_filterMap] at hv'
        obtain ⟨i, -, hi⟩ := hv'
        split at hi
        · cases hi
        · rename_i hh
          obtain ⟨D, e1, -, -, e4⟩ := hleaf i (by simpa using hh)
          rw [e1] at hi; cases hi
          exact e4 htn
      have hne : 0 < (crossedNormals l (List.finRange 8)).length := by
        by_contra hcon
        apply hnh
        intro i
        by_contra hi
        obtain ⟨D, e1, -⟩ := hleaf i (by simpa using hi)
        have : D.normal ∈ crossedNormals l (List.finRange 8) := by
          simp only [crossedNormals, List.mem_filterMap]
          exact ⟨i, List.mem_finRange i, by rw [if_neg hi, e1]; rfl⟩
        have := List.length_pos_of_mem this
        omega
      have := foldl_add_const (crossedNormals l (List.finRange 8)) (fun v => v) hall ⟨0, 0, 0⟩
      rw [List.map_id'] at this
      rw [this]
      have hlen := unitVec_ne hf.nonzero
      have := normalize_smul htn hf.nonzero (t := (crossedNormals l (List.finRange 8)).length / n.length) (by positivity)
      refine Eq.trans ?_ this
      congr 1
      ext <;> dsimp only [unitVec] <;> ring

/-- C70 (DC octree): with the regula falsi solver, any number of steps, any error bound and any options of the QEF solver, with and without
simplification, the mesh of a plane lies on the plane, and its normals are the normal of the plane. -/
theorem C70_dc_octree (hg : g.Reachable) (hstep : 0 < g.step) (hf : PlaneField f n d) (hp : ProperField f)
    (h : g.fill f (regulaFalsiFinder nan steps) = some g') {env : DcEnv ℝ} (hn : GoodDirection env n) {o o' o'' : DcOctree ℝ} {solver q' : Qef ℝ 3}
    {epsilon : ℝ} {simplify : Bool} (hlev : simplify = false ∨ o.level ≤ 9) (ho1 : o.globalPos = g.globalPos) (ho2 : o.globalScale = g.step)
    (hin : CubeIn g'.maxCoord (rootCube o.level)) (hb : o.build env g' solver epsilon simplify = some (q', o'))
    {r : PlacedMesh ℝ} (hc : o'.contour = some (r, o'')) :
    ExactlyOn f r ∧ (TrueNormalize env.normalize → ∀ v ∈ r.mesh.vertices, v.normal = unitVec n) := by
  have hF := C07_filled hg hp h
  obtain ⟨g'', hfill, ⟨-, -, hpos, hst⟩, -⟩ := C06_fill_materials hg f (regulaFalsiFinder nan steps)
  rw [h] at hfill; cases hfill
  obtain ⟨s, hs, hs'⟩ := hn.exact
  obtain ⟨ht, -⟩ := build_ok hF hin hb
  obtain ⟨o1, o2⟩ : o'.globalPos = o.globalPos ∧ o'.globalScale = o.globalScale := by
    unfold DcOctree.build at hb
    split at hb
    · cases hb
    · cases hb; exact ⟨rfl, rfl⟩
  have hflat : ∀ x ∈ (locate o'.root (rootCube o.level)).leaves, FlatLeaf env g' n d s x := by
    have hin' := hin
    rw [← rootCube_eq] at hin' ⊢
    unfold DcOctree.build at hb
    split at hb
    · cases hb
    rename_i q root hn'
    cases hb
    exact flat_node hg hstep hf hp h hn hs hs' _ _ _ _ _ _ hin' hlev hn'
  have hk : (rootCube o.level).k ≤ 10 := by rw [rootCube_k]; exact level_le hF hin
  obtain ⟨vs, o1, visits, a1, -, -, a4, -⟩ := contour_eq ht hk
  rw [a1] at hc
  cases hc
  have key : ∀ v ∈ vs, f.value (meshToWorld ⟨⟨vs, flatTri (visits.flatMap fun v => octEdgeQuad g'
      ((leafCubes o'.root (rootCube o.level)).filter fun x => decide (Hetero g' x)) v.1 v.2.1 v.2.2.1 v.2.2.2)⟩,
        o'.globalPos, o'.globalScale⟩ v.position) = 0 ∧ (TrueNormalize env.normalize → v.normal = unitVec n) := by
    intro v hv
    obtain ⟨i, hi, rfl⟩ := List.getElem_of_mem hv
    obtain ⟨hlen, hall⟩ := List.forall₂_iff_get.1 a4
    obtain ⟨D, hD, hv⟩ := hall i (by omega) hi
    rw [List.get_eq_getElem] at hv
    rw [hv]
    have hm := List.getElem_mem (l := crossedLeaves o'.root.leaves) (n := i) (by omega)
    rw [List.get_eq_getElem] at hD
    obtain ⟨hm1, hm2⟩ := List.mem_filter.1 hm
    generalize (crossedLeaves o'.root.leaves)[i]'(by omega) = l at hD hm1 hm2 ⊢
    rw [← leaves_locate o'.root (rootCube o.level)] at hm1
    obtain ⟨x, hx, hxe⟩ := List.mem_map.1 hm1
    obtain ⟨D', e1, -, e3, e4⟩ := hflat x hx (by rw [hxe]; simpa using hm2)
    rw [hxe, hD] at e1; cases e1
    refine ⟨?_, e4⟩
    rw [planeRow_iff (env := env) (by rw [hst]; exact hstep) hf hs hs'] at e3
    have : ∀ x, g'.localToGlobal x = meshToWorld ⟨⟨vs, flatTri (visits.flatMap fun v => octEdgeQuad g'
      ((leafCubes o'.root (rootCube o.level)).filter fun x => decide (Hetero g' x)) v.1 v.2.1 v.2.2.1 v.2.2.2)⟩,
        o'.globalPos, o'.globalScale⟩ x := by
      intro x; simp only [meshToWorld, Grid.localToGlobal, hpos, hst, o1, o2, ho1, ho2]
    rw [← this]; exact e3
  exact ⟨onTriangle_zero hf fun v hv => (key v hv).1, fun htn v hv => (key v hv).2 htn⟩

end

end Isomesh
