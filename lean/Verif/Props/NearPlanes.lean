import Verif.Props.MdcError
import Verif.Props.AccuracyOct

/-! C104: the triangles of simplified meshes stay near tangent planes of the surface. -/

namespace Isomesh
open Spec

section
variable {env : DcEnv ℝ} {g : Grid ℝ} {options : Qef ℝ 3}

theorem planeErr_convex {s n : VecN ℝ 3} {a b c q : Vec3 ℝ} {δ : ℝ} (ha : planeErr s n a.toVecN ≤ δ) (hb : planeErr s n b.toVecN ≤ δ)
    (hc : planeErr s n c.toVecN ≤ δ) (hq : InTriangle a b c q) : planeErr s n q.toVecN ≤ δ := by
  obtain ⟨α, β, γ, h1, h2, h3, h4, rfl⟩ := hq
  unfold planeErr at *
  set A := ∑ i, n i * (a.toVecN i - s i) with hA
  set B := ∑ i, n i * (b.toVecN i - s i) with hB
  set C := ∑ i, n i * (c.toVecN i - s i) with hC
  have e : ∑ i, n i * ((⟨α * a.x + β * b.x + γ * c.x, α * a.y + β * b.y + γ * c.y, α * a.z + β * b.z + γ * c.z⟩ : Vec3 ℝ).toVecN i - s i) =
      α * A + β * B + γ * C := by
    rw [hA, hB, hC]
    obtain rfl : γ = 1 - α - β := by linarith
    have v0 : ∀ v : Vec3 ℝ, v.toVecN 0 = v.x := fun _ => rfl
    have v1 : ∀ v : Vec3 ℝ, v.toVecN 1 = v.y := fun _ => rfl
    have v2 : ∀ v : Vec3 ℝ, v.toVecN 2 = v.z := fun _ => rfl
    simp only [Fin.sum_univ_three, v0, v1, v2]
    ring
  rw [e]
  have hd : 0 ≤ δ := (sq_nonneg _).trans ha
  have k : (α * A + β * B + γ * C) ^ 2 ≤ α * A ^ 2 + β * B ^ 2 + γ * C ^ 2 := by
    obtain rfl : γ = 1 - α - β := by linarith
    nlinarith [mul_nonneg (mul_nonneg h1 h2) (sq_nonneg (A - B)), mul_nonneg (mul_nonneg h1 h3) (sq_nonneg (A - C)),
      mul_nonneg (mul_nonneg h2 h3) (sq_nonneg (B - C))]
  nlinarith [mul_le_mul_of_nonneg_left ha h1, mul_le_mul_of_nonneg_left hb h2, mul_le_mul_of_nonneg_left hc h3]

/-- A segment with ends on different sides has a crossing edge. -/
theorem segment_crossing {D : Axis} {p : IVec3} : ∀ {n : Nat}, solidAt g p ≠ solidAt g (segEnd D p n) →
    ∃ m : Nat, m < n ∧ solidAt g (segEnd D p m) ≠ solidAt g (segEnd D p (m + 1 : Nat)) := by
  intro n
  induction n with
  | zero =>
    intro h
    refine absurd ?_ h
    cases D <;> simp [segEnd, shift]
  | succ n ih =>
    intro h
    by_cases h0 : solidAt g p = solidAt g (segEnd D p n)
    · exact ⟨n, Nat.lt_succ_self n, by rw [← h0]; exact h⟩
    · obtain ⟨m, h1, h2⟩ := ih h0
      exact ⟨m, h1.trans (Nat.lt_succ_self n), h2⟩

/-- The vertices of the mesh of a built octree, in the order of the crossed leaves. -/
theorem C104_vertices (ht : 0 < env.tiny) (hF : Filled g) (hcl : CleanBuild env.eps env.tiny g options) {o o' o'' : DcOctree ℝ} {q' : Qef ℝ 3}
    {epsilon : ℝ} {simplify : Bool} (hin : CubeIn g.maxCoord (rootCube o.level)) (hb : o.build env g options epsilon simplify = some (q', o'))
    {r : PlacedMesh ℝ} (hc : o'.contour = some (r, o'')) :
    List.Forall₂ (fun (c : Cube) (v : MeshVertex ℝ) => c.k = 0 ∨ cubeErr env.eps g c.k c.lo v.position.toVecN ≤ epsilon / (o.globalScale * o.globalScale))
      ((leafCubes o'.root (rootCube o.level)).filter fun c => decide (Hetero g c)) r.mesh.vertices := by
  obtain ⟨htree, -⟩ := build_ok hF hin hb
  have hleaf' : ∀ x ∈ (locate o'.root (rootCube o.level)).leaves, ErrLeaf env g options (epsilon / (o.globalScale * o.globalScale)) x := by
    have hin' := hin
    rw [← rootCube_eq] at hin' ⊢
    unfold DcOctree.build at hb
    split at hb
    · cases hb
    rename_i q root hn'
    cases hb
    exact err_node ht hF hcl _ _ _ _ _ _ hin' (sameOptions_refl _) hn'
  have hk : (rootCube o.level).k ≤ 10 := by rw [rootCube_k]; exact level_le hF hin
  obtain ⟨vs, o1, visits, a1, -, -, a4, -⟩ := contour_eq htree hk
  rw [a1] at hc
  cases hc
  have hleaf := treeOK_leaf htree
  have e1 : crossedLeaves o'.root.leaves = ((locate o'.root (rootCube o.level)).leaves.filter fun x => !x.2.homogeneous).map (·.2) := by
    rw [← leaves_locate o'.root (rootCube o.level), crossedLeaves, List.filter_map]; rfl
  have e2 : ((leafCubes o'.root (rootCube o.level)).filter fun c => decide (Hetero g c)) =
      ((locate o'.root (rootCube o.level)).leaves.filter fun x => !x.2.homogeneous).map (·.1) := by
    rw [leafCubes, List.filter_map]
    congr 1
    apply List.filter_congr
    intro x hx
    have := homogeneous_iff (hleaf x hx).1.corners
    by_cases b : Hetero g x.1
    · have : x.2.homogeneous = false := by rw [hetero_false, this]; simpa using b
      simp [this, b]
    · simp [this.2 b, b]
  rw [e1, List.forall₂_map_left_iff] at a4
  rw [e2, List.forall₂_map_left_iff]
  have a5 : List.Forall₂ (fun x v => x ∈ (locate o'.root (rootCube o.level)).leaves.filter (fun x => !x.2.homogeneous) ∧ LeafVertex x.2 v)
      ((locate o'.root (rootCube o.level)).leaves.filter fun x => !x.2.homogeneous) vs := by
    have := List.forall₂_iff_get.1 a4
    exact List.forall₂_iff_get.2 ⟨this.1, fun i h1 h2 => ⟨List.get_mem _ _, this.2 i h1 h2⟩⟩
  refine a5.imp ?_
  rintro x v ⟨hx, d, hd, rfl⟩
  obtain ⟨hx, hf⟩ := List.mem_filter.1 hx
  obtain ⟨D', k1, -, -, k4⟩ := hleaf' x hx (by simpa using hf)
  rw [hd] at k1; cases k1
  exact k4

/-- C104 (DC octree).  For every triangle of the mesh there is one surface crossing such that each corner of the triangle belongs to a leaf having the
crossed edge in its cube; corners in merged leaves are within the bound of the tangent plane at this crossing, and if all three are,
so is every point of the triangle. -/
theorem C104_dc_octree (ht : 0 < env.tiny) (hF : Filled g) (hcl : CleanBuild env.eps env.tiny g options) {o o' o'' : DcOctree ℝ} {q' : Qef ℝ 3}
    {epsilon : ℝ} {simplify : Bool} (hin : CubeIn g.maxCoord (rootCube o.level)) (hb : o.build env g options epsilon simplify = some (q', o'))
    {r : PlacedMesh ℝ} (hc : o'.contour = some (r, o'')) :
    ∀ t ∈ triangles r.mesh.indices, ∃ e ∈ edgeList g, CrossingEdge g e.axis e.lesser ∧
      (∀ n, (n = t.1 ∨ n = t.2.1 ∨ n = t.2.2) → ∀ v, r.mesh.vertices[n]? = some v → ∃ c ∈ leafCubes o'.root (rootCube o.level), c.ClosedR v.position ∧
        (∃ P, c.Has P ∧ EdgeOfCell P e.axis e.lesser) ∧ (c.k = 0 ∨
          planeErr e.surfacePoint.toVecN (edgeNormal env.eps e.gradient).toVecN v.position.toVecN ≤ epsilon / (o.globalScale * o.globalScale))) := by
  obtain ⟨r', o1, visits, hc', r1, r2, -, hvis, htri, hcells, hlen, hnd, -, -, -⟩ := C22_contour hF hin hb
  rw [hc] at hc'; cases hc'
  have hv := C26_vertices hF hin hb hc
  have hv2 := C104_vertices ht hF hcl hin hb hc
  set cells := (leafCubes o'.root (rootCube o.level)).filter fun c => decide (Hetero g c) with hcd
  intro t ht
  rw [htri] at ht
  obtain ⟨⟨D, p, j, q⟩, hq, htq⟩ := List.mem_flatMap.1 ht
  have hmin := (hvis D p j q).1 hq
  unfold octEdgeQuad at htq
  dsimp only at htq
  split_ifs at htq with hs
  · simp at htq
  have hqc := hcells D p j q hmin hs
  obtain ⟨m, hm, hms⟩ := segment_crossing (n := 2 ^ j) (by push_cast; exact hs)
  have hmz : (m : Int) < 2 ^ j := by exact_mod_cast hm
  -- the cells around the crossing edge
  have hcellHas : ∀ i, (q i).Has (Spec.edgeCorner D (segEnd D p m) 1 i) := by
    intro i
    have h1 := hmin.contains i
    have key : ∀ A, (q i).lo.get A ≤ (Spec.edgeCorner D (segEnd D p m) 1 i).get A ∧
        (Spec.edgeCorner D (segEnd D p m) 1 i).get A < (q i).lo.get A + (q i).side := by
      intro A
      have a1 := cubeSub_get h1 A
      have off : ∀ D A, ∀ i : Fin 4, (edgeOff D i).get A = 0 ∨ ((edgeOff D i).get A = -1 ∧ A ≠ D) := by
        intro D A
        cases D <;> cases A <;> decide
      have e1 : (Spec.edgeCorner D p (2 ^ j) i).get A = p.get A + 2 ^ j * (edgeOff D i).get A := by cases A <;> rfl
      have e2 : (Spec.edgeCorner D (segEnd D p m) 1 i).get A = p.get A + (if A = D then (m : Int) else 0) + (edgeOff D i).get A := by
        cases D <;> cases A <;> simp [Spec.edgeCorner, segEnd, shift, IVec3.get]
      have hp2 : (0 : Int) < 2 ^ j := by positivity
      dsimp only at a1
      rw [e1] at a1
      rw [e2]
      unfold Cube.side
      generalize (2 : Int) ^ j = u at *
      generalize (2 : Int) ^ (q i).k = u' at *
      rcases off D A i with h | ⟨h, hA⟩
      · rw [h] at a1 ⊢
        split_ifs <;> omega
      · rw [h] at a1 ⊢
        rw [if_neg hA]
        omega
    exact ⟨key .X, key .Y, key .Z⟩
  have hedge : ∀ i, EdgeOfCell (Spec.edgeCorner D (segEnd D p m) 1 i) D (segEnd D p m) := fun i => edgeCorner_of D (segEnd D p m) i
  have hroot : ∀ c ∈ leafCubes o'.root (rootCube o.level), Cube.Sub c (rootCube o.level) := by
    intro c hcm
    obtain ⟨l, hl, rfl⟩ := List.mem_map.1 hcm
    exact leaf_sub (placed_locate _ _ (treeOK_height (build_ok hF hin hb).1)) l hl
  have hcr : CrossingEdge g D (segEnd D p m) := by
    refine ⟨fun v hv => ?_, ?_⟩
    · have h0 := hedge 0 v hv
      have hH := hcellHas 0
      have hsub := hroot _ (List.mem_filter.1 (hqc 0)).1
      refine hin v (closed_sub hsub ?_)
      unfold Cube.Has at hH
      simp only [cellVertices, List.mem_cons, List.not_mem_nil, or_false] at h0
      rcases h0 with h | h | h | h | h | h | h | h <;> subst h <;> simp only [Cube.Closed, shift] <;> omega
    · intro h
      apply hms
      rw [h]
      congr 1
      cases D <;> simp [segEnd, edgeEnd, shift, add_assoc]
  obtain ⟨e, he, hl⟩ := (hF.edge_iff _ _).2 hcr
  have hax := hF.edge_axis _ _ he
  have heL : e ∈ edgeList g := by rw [mem_edgeList hF, hax]; exact he
  refine ⟨e, heL, by rw [hax, hl]; exact hcr, ?_⟩
  have hvert : ∀ i, ∀ v, r.mesh.vertices[cells.idxOf (q i)]? = some v → ∃ c ∈ leafCubes o'.root (rootCube o.level), c.ClosedR v.position ∧
        (∃ P, c.Has P ∧ EdgeOfCell P e.axis e.lesser) ∧ (c.k = 0 ∨
          planeErr e.surfacePoint.toVecN (edgeNormal env.eps e.gradient).toVecN v.position.toVecN ≤ epsilon / (o.globalScale * o.globalScale)) := by
    intro i v hvi
    have hlt := List.idxOf_lt_length_of_mem (hqc i)
    obtain ⟨hl1, hall⟩ := List.forall₂_iff_get.1 hv
    obtain ⟨hl2, hall2⟩ := List.forall₂_iff_get.1 hv2
    have k1 := (hall (cells.idxOf (q i)) hlt (by omega)).1
    have k2 := hall2 (cells.idxOf (q i)) hlt (by omega)
    rw [List.getElem?_eq_getElem (by omega)] at hvi
    cases hvi
    simp only [List.get_eq_getElem, List.getElem_idxOf] at k1 k2
    have heP : EdgeOfCell (Spec.edgeCorner D (segEnd D p m) 1 i) e.axis e.lesser := by rw [hax, hl]; exact hedge i
    exact ⟨q i, (List.mem_filter.1 (hqc i)).1, k1, ⟨_, hcellHas i, heP⟩,
      k2.imp_right fun h => (plane_le env.eps _ heL heP (q i).k (q i).lo (hcellHas i)).trans h⟩
  intro n hn v hvn
  have hidx := octQuad_mem htq n hn
  rcases hidx with rfl | rfl | rfl | rfl
  exacts [hvert 0 v hvn, hvert 1 v hvn, hvert 2 v hvn, hvert 3 v hvn]

/-- C104 (MDC octree).  The same for manifold dual contouring with any bound. -/
theorem C104_mdc_octree (ht : 0 < env.tiny) (hF : Filled g) {o o' o1 o2 : MdcOctree ℝ} (hcl : CleanMdc env.eps env.tiny g options (rootCube o.level))
    {q' : Qef ℝ 3} (hlev : o.level ≤ 9) (hsc : o.globalScale ≠ 0)
    (hin : CubeIn g.maxCoord (rootCube o.level)) (hb : o.build env g options = some (q', o')) {bounds : List ℝ}
    (h1 : contourAll o' bounds = some o1) {ε : ℝ} {r : PlacedMesh ℝ} (h2 : o1.contour ε = some (r, o2)) :
    ∀ t ∈ triangles r.mesh.indices, ∃ e ∈ edgeList g, CrossingEdge g e.axis e.lesser ∧
      (∀ n, (n = t.1 ∨ n = t.2.1 ∨ n = t.2.2) → ∀ v, r.mesh.vertices[n]? = some v → ∃ c, Dyadic (rootCube o.level) c ∧ c.ClosedR v.position ∧
        (∃ P, c.Has P ∧ EdgeOfCell P e.axis e.lesser) ∧ (c.k = 0 ∨
          planeErr e.surfacePoint.toVecN (edgeNormal env.eps e.gradient).toVecN v.position.toVecN ≤ ε / (o.globalScale * o.globalScale))) := by
  obtain ⟨V, hM, hall⟩ := C103_mdc_octree ht hF hcl hlev hsc hin hb h1 h2
  obtain ⟨es, -, hes, htri⟩ := hM.quads
  intro t ht
  rw [htri] at ht
  obtain ⟨le, hle, hte⟩ := List.mem_flatMap.1 ht
  obtain ⟨hcr, hbd⟩ := (hes le).1 hle
  obtain ⟨e, he, hl⟩ := (hF.edge_iff _ _).2 hcr
  have hax := hF.edge_axis _ _ he
  have heL : e ∈ edgeList g := by rw [mem_edgeList hF, hax]; exact he
  have hof : LEdge.ofGridEdge e = le := by cases le; simp only [LEdge.ofGridEdge] at *; rw [hax, hl]
  refine ⟨e, heL, by rw [hax, hl]; exact hcr, ?_⟩
  have hvert : ∀ i, ∀ v, r.mesh.vertices[V (le.seen i)]? = some v → ∃ c, Dyadic (rootCube o.level) c ∧ c.ClosedR v.position ∧
        (∃ P, c.Has P ∧ EdgeOfCell P e.axis e.lesser) ∧ (c.k = 0 ∨
          planeErr e.surfacePoint.toVecN (edgeNormal env.eps e.gradient).toVecN v.position.toVecN ≤ ε / (o.globalScale * o.globalScale)) := by
    intro i v hvi
    obtain ⟨c, hd, hcl, hhas, herr⟩ := hall _ v hvi
    have hx := edge_piece_in hcr hbd i
    refine ⟨c, hd, hcl, ⟨(le.seen i).cell, hhas _ hx rfl, ?_⟩, herr.imp_right fun h => le_trans ?_ h⟩
    · rw [hax, hl]; exact hx.2.2
    · have hfin : {x : CellCrossing | x.In g (rootCube o.level) ∧ V x = V (le.seen i)}.Finite :=
        (crossings_count g o.level).1.subset fun x hx => hx.1
      rw [← edgeErr_record hF env.eps heL, hof]
      unfold crossErr
      rw [finsum_mem_eq_finite_toFinset_sum _ hfin]
      exact Finset.single_le_sum (f := fun y : CellCrossing => edgeErr env.eps g y.edge v.position.toVecN) (fun y _ => edgeErr_nonneg _ _ _)
        (hfin.mem_toFinset.2 ⟨hx, rfl⟩)
  intro n hn v hvn
  rcases octQuad_mem hte n hn with rfl | rfl | rfl | rfl
  exacts [hvert 0 v hvn, hvert 1 v hvn, hvert 2 v hvn, hvert 3 v hvn]

/-- C104, triangles between merged cubes: if no corner of the triangle lies in a leaf of the size of a cell, every point of the triangle is within
`sqrt ε` of the tangent plane at one surface crossing. -/
theorem C104_triangle (ht : 0 < env.tiny) (hF : Filled g) (hcl : CleanBuild env.eps env.tiny g options) {o o' o'' : DcOctree ℝ} {q' : Qef ℝ 3}
    {epsilon : ℝ} {simplify : Bool} (hin : CubeIn g.maxCoord (rootCube o.level)) (hb : o.build env g options epsilon simplify = some (q', o'))
    {r : PlacedMesh ℝ} (hc : o'.contour = some (r, o'')) {t : Nat × Nat × Nat} (htr : t ∈ triangles r.mesh.indices) {a b d : MeshVertex ℝ}
    (ha : r.mesh.vertices[t.1]? = some a) (hb' : r.mesh.vertices[t.2.1]? = some b) (hd : r.mesh.vertices[t.2.2]? = some d)
    (hbig : ∀ v ∈ [a, b, d], ∀ c ∈ leafCubes o'.root (rootCube o.level), c.ClosedR v.position → c.k ≠ 0) :
    ∃ e ∈ edgeList g, CrossingEdge g e.axis e.lesser ∧ ∀ q, InTriangle a.position b.position d.position q →
      planeErr e.surfacePoint.toVecN (edgeNormal env.eps e.gradient).toVecN q.toVecN ≤ epsilon / (o.globalScale * o.globalScale) := by
  obtain ⟨e, he, hcr, hall⟩ := C104_dc_octree ht hF hcl hin hb hc t htr
  refine ⟨e, he, hcr, fun q hq => ?_⟩
  have key : ∀ v ∈ [a, b, d], ∀ n, (n = t.1 ∨ n = t.2.1 ∨ n = t.2.2) → r.mesh.vertices[n]? = some v →
      planeErr e.surfacePoint.toVecN (edgeNormal env.eps e.gradient).toVecN v.position.toVecN ≤ epsilon / (o.globalScale * o.globalScale) := by
    intro v hv n hn hvn
    obtain ⟨c, hcm, hcl, -, h⟩ := hall n hn v hvn
    exact h.resolve_left (hbig v hv c hcm hcl)
  exact planeErr_convex (key a (by simp) _ (Or.inl rfl) ha) (key b (by simp) _ (Or.inr (Or.inl rfl)) hb') (key d (by simp) _ (Or.inr (Or.inr rfl)) hd) hq

/-- C104, simplification without an allowed error: a triangle between merged cubes lies in the tangent plane at one surface crossing. -/
theorem C104_exact (ht : 0 < env.tiny) (hF : Filled g) (hcl : CleanBuild env.eps env.tiny g options) {o o' o'' : DcOctree ℝ} {q' : Qef ℝ 3}
    {simplify : Bool} (hin : CubeIn g.maxCoord (rootCube o.level)) (hb : o.build env g options 0 simplify = some (q', o'))
    {r : PlacedMesh ℝ} (hc : o'.contour = some (r, o'')) {t : Nat × Nat × Nat} (htr : t ∈ triangles r.mesh.indices) {a b d : MeshVertex ℝ}
    (ha : r.mesh.vertices[t.1]? = some a) (hb' : r.mesh.vertices[t.2.1]? = some b) (hd : r.mesh.vertices[t.2.2]? = some d)
    (hbig : ∀ v ∈ [a, b, d], ∀ c ∈ leafCubes o'.root (rootCube o.level), c.ClosedR v.position → c.k ≠ 0) :
    ∃ e ∈ edgeList g, CrossingEdge g e.axis e.lesser ∧ ∀ q, InTriangle a.position b.position d.position q →
      ∑ i, (edgeNormal env.eps e.gradient).toVecN i * (q.toVecN i - e.surfacePoint.toVecN i) = 0 := by
  obtain ⟨e, he, hcr, h⟩ := C104_triangle ht hF hcl hin hb hc htr ha hb' hd hbig
  refine ⟨e, he, hcr, fun q hq => ?_⟩
  have h2 := h q hq
  rw [zero_div] at h2
  exact pow_eq_zero_iff (two_ne_zero) |>.1 (le_antisymm h2 (sq_nonneg _))

end
end Isomesh
