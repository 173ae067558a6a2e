import Verif.Props.Accuracy
import Verif.Props.DcUniform
import Verif.Props.MdcOctree
import Verif.Props.DcDemo

/-! C69 for octrees: the meshes of `DC_Octree` and `MDC_Octree` stay close to the true surface. -/

namespace Isomesh

open Spec Set

theorem cubeR_get {c : Cube} {v : Vec3 ℝ} (h : c.ClosedR v) (A : Axis) : (c.lo.get A : ℝ) ≤ v.get A ∧ v.get A ≤ c.lo.get A + 2 ^ c.k := by
  unfold Cube.ClosedR at h
  push_cast at h
  cases A
  exacts [h.1, h.2.1, h.2.2]

theorem cubeSub_get {a b : Cube} (h : Cube.Sub a b) (A : Axis) : b.lo.get A ≤ a.lo.get A ∧ a.lo.get A + 2 ^ a.k ≤ b.lo.get A + 2 ^ b.k := by
  cases A
  exacts [h.1, h.2.1, h.2.2]

/-- The ends of a segment are part of each of the four cubes around it. -/
theorem edgeCorner_bounds (D : Axis) (p : IVec3) {s : Int} (hs : 0 ≤ s) (i : Fin 4) (A : Axis) :
    (Spec.edgeCorner D p s i).get A ≤ p.get A ∧ p.get A + (if A = D then s else 0) ≤ (Spec.edgeCorner D p s i).get A + s := by
  have key : ∀ D A, ∀ i : Fin 4, (edgeOff D i).get A = 0 ∨ ((edgeOff D i).get A = -1 ∧ A ≠ D) := by
    intro D A
    cases D <;> cases A <;> decide
  have e : (Spec.edgeCorner D p s i).get A = p.get A + s * (edgeOff D i).get A := by cases A <;> rfl
  rw [e]
  rcases key D A i with h | ⟨h, hA⟩
  · rw [h]; split_ifs <;> constructor <;> omega
  · rw [h, if_neg hA]; constructor <;> omega

/-- The segment of `L` steps from `p` along `D` carries a zero, if exactly one end is solid. -/
theorem segment_zero {f : ScalarField ℝ} (hf : AxisContinuous f) {origin : Vec3 ℝ} {step : ℝ} (hstep : 0 < step) {D : Axis} {p : IVec3}
    {L : Nat} (h : ¬ (f.value (worldPos origin step p) ≤ 0 ↔ f.value (worldPos origin step (segEnd D p L)) ≤ 0)) :
    ∃ (z : Vec3 ℝ) (s : ℝ), 0 ≤ s ∧ s ≤ L ∧ f.value z = 0 ∧
      ∀ A, z.get A = (p.get A + if A = D then s else 0) * step + origin.get A := by
  set P := worldPos origin step p with hP
  have hL : (0 : ℝ) ≤ L := Nat.cast_nonneg L
  have hend : worldPos origin step (segEnd D p L) = P.set D (P.get D + L * step) := by
    rw [hP]
    cases D <;> simp only [worldPos, segEnd, shift, Vec3.set, Vec3.get] <;> ext <;> push_cast <;> ring
  rw [hend] at h
  have hP0 : P = P.set D (P.get D) := by cases D <;> rfl
  have h0 : (0 : ℝ) ∈ uIcc (f.value (P.set D (P.get D))) (f.value (P.set D (P.get D + L * step))) := by
    rw [← hP0, mem_uIcc]
    by_cases h1 : f.value P ≤ 0
    · left
      refine ⟨h1, ?_⟩
      by_contra h2
      exact h ⟨fun _ => (not_le.1 h2).le, fun _ => h1⟩
    · right
      refine ⟨?_, (not_le.1 h1).le⟩
      by_contra h2
      exact h ⟨fun h3 => absurd h3 h1, fun h3 => absurd h3 h2⟩
  obtain ⟨c, hc, hc0⟩ := intermediate_value_uIcc (hf D P).continuousOn h0
  rw [uIcc_of_le (by nlinarith), mem_Icc] at hc
  refine ⟨P.set D c, (c - P.get D) / step, div_nonneg (by linarith) hstep.le, by rw [div_le_iff₀ hstep]; linarith, hc0, ?_⟩
  intro A
  rw [vec3_get_set]
  split_ifs with hA
  · subst hA
    rw [add_mul, div_mul_cancel₀ _ hstep.ne', hP, worldPos_get]; ring
  · rw [hP, worldPos_get]; ring

/-- A point of a cube that contains the segment of the zero. -/
theorem cube_near {origin : Vec3 ℝ} {step : ℝ} (hstep : 0 < step) {D : Axis} {p : IVec3} {j : Nat} {z : Vec3 ℝ} {s : ℝ} (s0 : 0 ≤ s)
    (s1 : s ≤ 2 ^ j) (hz : ∀ A, z.get A = (p.get A + if A = D then s else 0) * step + origin.get A) {c : Cube} {i : Fin 4}
    (hc : Cube.Sub ⟨Spec.edgeCorner D p (2 ^ j) i, j⟩ c) {m : Nat} (hm : c.k ≤ m) {v : Vec3 ℝ} (hv : c.ClosedR v) {r : PlacedMesh ℝ}
    (hr1 : r.globalPos = origin) (hr2 : r.globalScale = step) (A : Axis) :
    |(meshToWorld r v).get A - z.get A| ≤ 2 ^ m * step := by
  have h1 := cubeSub_get hc A
  have h2 := edgeCorner_bounds D p (s := 2 ^ j) (by positivity) i A
  have h3 := cubeR_get hv A
  dsimp only at h1
  have k1 : (c.lo.get A : ℝ) ≤ p.get A := by exact_mod_cast h1.1.trans h2.1
  have k2 : (p.get A : ℝ) + (if A = D then 2 ^ j else 0) ≤ c.lo.get A + 2 ^ c.k := by
    have := h2.2.trans h1.2
    split_ifs at this ⊢ <;> exact_mod_cast this
  have hmm : (2 : ℝ) ^ c.k ≤ 2 ^ m := pow_le_pow_right₀ (by norm_num) hm
  have key : |v.get A - (p.get A + if A = D then s else 0)| ≤ 2 ^ m := by
    rw [abs_le]
    have : (0 : ℝ) ≤ 2 ^ c.k := by positivity
    split_ifs at * <;> constructor <;> linarith [h3.1, h3.2]
  rw [hz, meshToWorld_get, hr1, hr2]
  have e : v.get A * step + origin.get A - ((p.get A + if A = D then s else 0) * step + origin.get A) =
      (v.get A - (p.get A + if A = D then s else 0)) * step := by ring
  rw [e, abs_mul, abs_of_pos hstep]
  exact mul_le_mul_of_nonneg_right key hstep.le

theorem solidAt_fill {g g' : Grid ℝ} (hg : g.Reachable) {f : ScalarField ℝ} (hp : ProperField f) {sv : ZeroFinder ℝ}
    (h : g.fill f sv = some g') {p : IVec3} (hpin : InCube g'.maxCoord p) :
    solidAt g' p = decide (f.value (worldPos g.globalPos g.step p) ≤ 0) := by
  obtain ⟨g'', hfill, ⟨-, hh, -, -⟩, hat⟩ := C06_fill_materials hg f sv
  rw [h] at hfill; cases hfill
  have hmc : g'.maxCoord = g.maxCoord := by unfold Grid.maxCoord; rw [hh]
  rw [hmc] at hpin
  unfold solidAt
  rw [hat p hpin]
  simp only [vertexMaterial_le]
  by_cases hle : f.value (worldPos g.globalPos g.step p) ≤ 0
  · simp [hle, hp _ hle]
  · simp [hle]

theorem octQuad_mem {v0 v1 v2 v3 : Nat} {b : Bool} {t : Nat × Nat × Nat} (h : t ∈ octQuad v0 v1 v2 v3 b) :
    ∀ v, (v = t.1 ∨ v = t.2.1 ∨ v = t.2.2) → v = v0 ∨ v = v1 ∨ v = v2 ∨ v = v3 := by
  unfold octQuad at h
  have h := (List.mem_filter.1 h).1
  split at h <;> simp only [List.mem_cons, List.not_mem_nil, or_false] at h <;> rcases h with rfl | rfl <;> simp only <;> omega

/-- C69 (DC octree): every point of the mesh is within `√3 · 2 ^ m` steps of a true zero of the field, if no leaf crossed by the surface is
larger than `2 ^ m`. -/
theorem C69_dc_octree {g g' : Grid ℝ} (hg : g.Reachable) (hstep : 0 < g.step) {f : ScalarField ℝ} (hf : AxisContinuous f)
    (hp : ProperField f) {sv : ZeroFinder ℝ} (h : g.fill f sv = some g') {env : DcEnv ℝ} {o o' o'' : DcOctree ℝ} {solver q' : Qef ℝ 3}
    {epsilon : ℝ} {simplify : Bool} (ho1 : o.globalPos = g.globalPos) (ho2 : o.globalScale = g.step)
    (hin : CubeIn g'.maxCoord (rootCube o.level)) (hb : o.build env g' solver epsilon simplify = some (q', o'))
    {r : PlacedMesh ℝ} (hc : o'.contour = some (r, o'')) {m : Nat}
    (hm : ∀ c ∈ leafCubes o'.root (rootCube o.level), Hetero g' c → c.k ≤ m) :
    ∀ t ∈ triangles r.mesh.indices, ∃ z, f.value z = 0 ∧ ∀ q, OnMeshTriangle r t q → dist2 q z ≤ 3 * (2 ^ m * g.step) ^ 2 := by
  have hF := C07_filled hg hp h
  obtain ⟨r', o1, visits, hc', r1, r2, -, hvis, htri, hcells, hlen, hnd, -, -, -⟩ := C22_contour hF hin hb
  rw [hc] at hc'; cases hc'
  have hv := C26_vertices hF hin hb hc
  set cells := (leafCubes o'.root (rootCube o.level)).filter fun c => decide (Hetero g' c) with hcd
  intro t ht
  rw [htri] at ht
  obtain ⟨⟨D, p, j, q⟩, hq, htq⟩ := List.mem_flatMap.1 ht
  have hmin := (hvis D p j q).1 hq
  unfold octEdgeQuad at htq
  dsimp only at htq
  split_ifs at htq with hs
  · simp at htq
  have hqc := hcells D p j q hmin hs
  -- the ends of the segment are in the grid
  have hroot : ∀ c ∈ leafCubes o'.root (rootCube o.level), Cube.Sub c (rootCube o.level) := by
    intro c hcm
    obtain ⟨l, hl, rfl⟩ := List.mem_map.1 hcm
    exact leaf_sub (placed_locate _ _ (treeOK_height (build_ok hF hin hb).1)) l hl
  have hends : InCube g'.maxCoord p ∧ InCube g'.maxCoord (segEnd D p (2 ^ j)) := by
    have h1 := hroot _ (List.mem_filter.1 (hqc 0)).1
    have hcl : ∀ u : IVec3, (∀ A, p.get A ≤ u.get A ∧ u.get A ≤ p.get A + if A = D then 2 ^ j else 0) → InCube g'.maxCoord u := by
      intro u hu
      have key : ∀ A, (rootCube o.level).lo.get A ≤ u.get A ∧ u.get A ≤ (rootCube o.level).lo.get A + (rootCube o.level).side := by
        intro A
        have a1 := cubeSub_get h1 A
        have a2 := cubeSub_get (hmin.contains 0) A
        have a3 := edgeCorner_bounds D p (s := 2 ^ j) (by positivity) 0 A
        have a4 := hu A
        dsimp only at a2
        unfold Cube.side
        generalize (2 : Int) ^ (rootCube o.level).k = u1 at *
        generalize (2 : Int) ^ (q 0).k = u2 at *
        generalize (2 : Int) ^ j = u3 at *
        generalize (if A = D then u3 else 0) = u4 at *
        omega
      exact hin u ⟨key .X, key .Y, key .Z⟩
    constructor
    · apply hcl
      intro A
      split_ifs
      · exact ⟨le_rfl, by have : (0 : Int) ≤ 2 ^ j := by positivity
                          omega⟩
      · simp
    · apply hcl
      intro A
      have hpj : (0 : Int) ≤ 2 ^ j := by positivity
      cases D <;> cases A <;> simp [segEnd, shift, IVec3.get, hpj]
  obtain ⟨z, s, s0, s1, hz0, hz⟩ := segment_zero hf hstep (D := D) (p := p) (L := 2 ^ j) (by
    rw [solidAt_fill hg hp h hends.1, solidAt_fill hg hp h hends.2] at hs
    push_cast
    intro hiff
    exact hs (decide_eq_decide.2 hiff))
  push_cast at s1
  have hvert : ∀ i, ∀ a, r.mesh.vertices[cells.idxOf (q i)]? = some a → ∀ A : Axis,
      |(meshToWorld r a.position).get A - z.get A| ≤ 2 ^ m * g.step := by
    intro i a ha
    have hlt := List.idxOf_lt_length_of_mem (hqc i)
    obtain ⟨hl, hall⟩ := List.forall₂_iff_get.1 hv
    have := (hall (cells.idxOf (q i)) hlt (by omega)).1
    rw [List.getElem?_eq_getElem (by omega)] at ha
    cases ha
    simp only [List.get_eq_getElem, List.getElem_idxOf] at this
    have hmem := List.mem_filter.1 (hqc i)
    exact cube_near hstep s0 s1 hz (hmin.contains i) (hm _ hmem.1 (of_decide_eq_true hmem.2)) this (by rw [r1, ho1]) (by rw [r2, ho2])
  refine ⟨z, hz0, ?_⟩
  rintro x ⟨a, b, d, ha, hb', hd, hx⟩
  have hidx := octQuad_mem htq
  have hv' : ∀ v, (v = t.1 ∨ v = t.2.1 ∨ v = t.2.2) → ∀ a, r.mesh.vertices[v]? = some a → ∀ A : Axis,
      |(meshToWorld r a.position).get A - z.get A| ≤ 2 ^ m * g.step := by
    intro v hvt a ha
    rcases hidx v hvt with rfl | rfl | rfl | rfl
    exacts [hvert 0 a ha, hvert 1 a ha, hvert 2 a ha, hvert 3 a ha]
  exact near_of_box (hv' _ (Or.inl rfl) _ ha) (hv' _ (Or.inr (Or.inl rfl)) _ hb') (hv' _ (Or.inr (Or.inr rfl)) _ hd) hx

/-- C69 (DC octree without simplification): every point of the mesh is within `√3` steps of a true zero of the field. -/
theorem C69_dc_octree_unsimplified {g g' : Grid ℝ} (hg : g.Reachable) (hstep : 0 < g.step) {f : ScalarField ℝ} (hf : AxisContinuous f)
    (hp : ProperField f) {sv : ZeroFinder ℝ} (h : g.fill f sv = some g') {env : DcEnv ℝ} {o o' o'' : DcOctree ℝ} {solver q' : Qef ℝ 3}
    {epsilon : ℝ} (ho1 : o.globalPos = g.globalPos) (ho2 : o.globalScale = g.step)
    (hin : CubeIn g'.maxCoord (rootCube o.level)) (hb : o.build env g' solver epsilon false = some (q', o'))
    {r : PlacedMesh ℝ} (hc : o'.contour = some (r, o'')) :
    ∀ t ∈ triangles r.mesh.indices, ∃ z, f.value z = 0 ∧ ∀ q, OnMeshTriangle r t q → dist2 q z ≤ 3 * g.step ^ 2 := by
  have hF := C07_filled hg hp h
  have key := C69_dc_octree hg hstep hf hp h ho1 ho2 hin hb hc (m := 0) (by
    intro c hc' hh
    obtain ⟨x, hx, rfl⟩ := List.mem_map.1 hc'
    have hok := (build_ok hF hin hb).1
    have hfine : FineLeaf env g' solver x := by
      have hin' := hin
      rw [← rootCube_eq] at hin' hx
      unfold DcOctree.build at hb
      split at hb
      · cases hb
      rename_i q root hn
      cases hb
      exact dcBuildNode_fine hF _ _ _ _ _ _ hin' (sameOptions_refl _) hn x hx
    have hhom : x.2.homogeneous = false := by
      have hx0 := (treeOK_leaf hok x hx).1
      rw [hetero_false, homogeneous_iff hx0.corners]; simpa using hh
    exact (hfine hhom).1.le)
  simpa using key

/-- C69 (MDC octree without simplification): with a negative error bound every point of the mesh is within `√3` steps of a true zero of the
field, after any sequence of earlier `contour` calls. -/
theorem C69_mdc_octree {g g' : Grid ℝ} (hg : g.Reachable) (hstep : 0 < g.step) {f : ScalarField ℝ} (hf : AxisContinuous f)
    (hp : ProperField f) {sv : ZeroFinder ℝ} (h : g.fill f sv = some g') {env : DcEnv ℝ} {o o' o1 o2 : MdcOctree ℝ} {solver q' : Qef ℝ 3}
    (ho1 : o.globalPos = g.globalPos) (ho2 : o.globalScale = g.step) (hin : CubeIn g'.maxCoord (rootCube o.level))
    (hsz : 4 * crossingCells g' (rootCube o.level) + 3 < 2 ^ 32) (hb : o.build env g' solver = some (q', o'))
    {bounds : List ℝ} (h1 : contourAll o' bounds = some o1) {ε : ℝ} (hε : ε < 0) {r : PlacedMesh ℝ} (h2 : o1.contour ε = some (r, o2)) :
    ∀ t ∈ triangles r.mesh.indices, ∃ z, f.value z = 0 ∧ ∀ q, OnMeshTriangle r t q → dist2 q z ≤ 3 * g.step ^ 2 := by
  have hF := C07_filled hg hp h
  have hsc : o.globalScale ≠ 0 := by rw [ho2]; exact hstep.ne'
  obtain ⟨M, V, hS, hall⟩ := C28_contour hF hin hsz (mul_self_pos.2 hsc) hb
  obtain ⟨o1', e1, e2⟩ := hall bounds
  rw [h1] at e1; cases e1
  obtain ⟨o2', e3⟩ := e2 ε
  rw [h2] at e3; cases e3
  obtain ⟨es, -, hes, htri⟩ := (hS.mesh ε).quads
  intro t ht
  dsimp only at ht
  rw [htri] at ht
  obtain ⟨e, he, hte⟩ := List.mem_flatMap.1 ht
  obtain ⟨hcr, hbd⟩ := (hes e).1 he
  have hends := edgeVertices_iff.1 hcr.1
  obtain ⟨z, s, s0, s1, hz0, hz⟩ := segment_zero hf hstep (D := e.axis) (p := e.at_) (L := 1) (by
    have hs := hcr.2
    rw [solidAt_fill hg hp h hends.1, solidAt_fill hg hp h hends.2] at hs
    intro hiff
    apply hs
    rw [decide_eq_decide]
    have : segEnd e.axis e.at_ ((1 : Nat) : Int) = edgeEnd e.axis e.at_ := by cases e.axis <;> rfl
    rw [this] at hiff
    exact hiff)
  have hvert : ∀ i, ∀ a, (M ε).vertices[V ε (e.seen i)]? = some a → ∀ A : Axis,
      |(meshToWorld ⟨M ε, o.globalPos, o.globalScale⟩ a.position).get A - z.get A| ≤ 2 ^ 0 * g.step := by
    intro i a ha
    obtain ⟨c, hd, hcl, hhas, -, -, -, hfit⟩ := C59_vertices hS ε ha
    have hk : c.k = 0 := by
      rcases hfit with hk | ⟨w, hw, -, hwe⟩
      · exact hk
      · obtain ⟨q1, hq⟩ := fit_box hw
        have := box_error hq
        have : ε / (o.globalScale * o.globalScale) < 0 := div_neg_of_neg_of_pos hε (mul_self_pos.2 hsc)
        linarith
    have hcell := hhas _ (edge_piece_in hcr hbd i) rfl
    have hsub : Cube.Sub ⟨Spec.edgeCorner e.axis e.at_ (2 ^ 0) i, 0⟩ c := by
      have e0 : (e.seen i).cell = Spec.edgeCorner e.axis e.at_ (2 ^ 0) i := rfl
      rw [e0] at hcell
      unfold Cube.Has at hcell
      unfold Cube.Sub
      unfold Cube.side at *
      rw [hk] at *
      dsimp only
      omega
    exact cube_near hstep s0 (by simpa using s1) hz hsub hk.le hcl ho1 ho2
  refine ⟨z, hz0, ?_⟩
  rintro x ⟨a, b, d, ha, hb', hd, hx⟩
  have hidx := octQuad_mem hte
  have hv' : ∀ v, (v = t.1 ∨ v = t.2.1 ∨ v = t.2.2) → ∀ a, (M ε).vertices[v]? = some a → ∀ A : Axis,
      |(meshToWorld ⟨M ε, o.globalPos, o.globalScale⟩ a.position).get A - z.get A| ≤ g.step := by
    intro v hvt a ha A
    have : |(meshToWorld ⟨M ε, o.globalPos, o.globalScale⟩ a.position).get A - z.get A| ≤ 2 ^ 0 * g.step := by
      rcases hidx v hvt with rfl | rfl | rfl | rfl
      exacts [hvert 0 a ha A, hvert 1 a ha A, hvert 2 a ha A, hvert 3 a ha A]
    simpa using this
  exact near_of_box (hv' _ (Or.inl rfl) _ ha) (hv' _ (Or.inr (Or.inl rfl)) _ hb') (hv' _ (Or.inr (Or.inr rfl)) _ hd) hx

/-- The hypotheses of the octree theorems are met by the octrees of side 2 over the ball grid, whose surface is not empty. -/
example (env : DcEnv ℝ) : ∃ g g' : Grid ℝ, g.Reachable ∧ 0 < g.step ∧ AxisContinuous ballField ∧ ProperField ballField ∧
    g.fill ballField (bisectionFinder 4) = some g' ∧ CrossingEdge g' .X ⟨0, 0, 0⟩ ∧
    (∃ (o o' o'' : DcOctree ℝ) (q' : Qef ℝ 3) (r : PlacedMesh ℝ), o.globalPos = g.globalPos ∧ o.globalScale = g.step ∧
      CubeIn g'.maxCoord (rootCube o.level) ∧ o.build env g' Qef.new3 1 false = some (q', o') ∧ o'.contour = some (r, o'')) ∧
    ∃ (o o' o1 o2 : MdcOctree ℝ) (q' : Qef ℝ 3) (r : PlacedMesh ℝ), o.globalPos = g.globalPos ∧ o.globalScale = g.step ∧
      CubeIn g'.maxCoord (rootCube o.level) ∧ 4 * crossingCells g' (rootCube o.level) + 3 < 2 ^ 32 ∧
      o.build env g' Qef.new3 = some (q', o') ∧ contourAll o' [1, -1] = some o1 ∧ o1.contour (-1) = some (r, o2) := by
  obtain ⟨g, hg⟩ : ∃ g0, Grid.mk' 2 (⟨0, 0, 0⟩ : Vec3 ℝ) 1 = .ok g0 := ⟨_, rfl⟩
  have hre : g.Reachable := .mk hg
  have hgp : g.globalPos = ⟨0, 0, 0⟩ ∧ g.step = 1 ∧ g.maxCoord = 1 := by
    cases hg; exact ⟨rfl, rfl, rfl⟩
  have hprop : ProperField ballField := by intro q _; simp [ballField]
  obtain ⟨g', hfill, ⟨hsz, hhf, hpos, hst⟩, hat⟩ := C06_fill_materials hre ballField (bisectionFinder 4)
  have hF := C07_filled hre hprop hfill
  have hm' : g'.maxCoord = 1 := by rw [← hgp.2.2]; exact hhf
  have hin := cubeIn_demo hm'
  have hp : 0 < (Qef.new3 : Qef ℝ 3).pinvTolerance := by simp only [Qef.new3]; norm_num
  refine ⟨g, g', hre, by rw [hgp.2.1]; norm_num, ?_, hprop, hfill, ?_, ?_, ?_⟩
  · intro D p; cases D <;> simp only [ballField, Vec3.set] <;> fun_prop
  · refine ⟨by rw [hm']; decide, ?_⟩
    rw [solidAt_fill hre hprop hfill (by rw [hm']; decide), solidAt_fill hre hprop hfill (by rw [hm']; decide), hgp.1, hgp.2.1]
    simp only [edgeEnd, shift]
    intro hd
    replace hd := decide_eq_decide.1 hd
    rw [ball_value, ball_value] at hd
    simp at hd
  · let o : DcOctree ℝ := ⟨1, ⟨0, 0, 0⟩, 1, .leaf ⟨0, fun _ => .Empty, none, none⟩⟩
    obtain ⟨q', o', r, o'', hb, -, hc⟩ := C22_completes (env := env) hF o 1 (simplify := false) hin hp (Or.inr (by decide))
    exact ⟨o, o', o'', q', r, hgp.1.symm, hgp.2.1.symm, hin, hb, hc⟩
  · obtain ⟨o, ho, ho1, ho2⟩ : ∃ o : MdcOctree ℝ, o.level = 1 ∧ o.globalPos = g.globalPos ∧ o.globalScale = g.step :=
      ⟨⟨1, g.globalPos, g.step, .leaf ⟨0, fun _ => .Empty, 0, []⟩, []⟩, rfl, rfl, rfl⟩
    have hsz : 4 * crossingCells g' (rootCube o.level) + 3 < 2 ^ 32 := C28_sizes g' (by rw [ho]; norm_num)
    have hs : o.globalScale ≠ 0 := by rw [ho2, hgp.2.1]; exact one_ne_zero
    rw [← ho] at hin
    obtain ⟨q', o', o1, hb, -⟩ := C28_completes (env := env) hF o hin (mul_self_pos.2 hs) hp (Or.inr (by rw [ho]; decide)) [1, -1]
    obtain ⟨M, V, -, hall⟩ := C28_contour hF hin hsz (mul_self_pos.2 hs) hb
    obtain ⟨o1', e1, e2⟩ := hall [1, -1]
    obtain ⟨o2, e3⟩ := e2 (-1)
    exact ⟨o, o', o1', o2, q', _, ho1, ho2, hin, hsz, hb, e1, e3⟩

end Isomesh
