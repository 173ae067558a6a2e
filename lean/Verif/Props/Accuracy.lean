import Verif.Spec.Accuracy
import Verif.Props.ZeroFinder
import Verif.Props.MarchingCubes
import Verif.Props.UniformDC

/-! C69: the meshes stay close to the true surface. -/

namespace Isomesh

open Spec Set

theorem edgeEnd_world (origin : Vec3 ℝ) (step : ℝ) (D : Axis) (p : IVec3) :
    worldPos origin step (edgeEnd D p) = (worldPos origin step p).set D ((worldPos origin step p).get D + step) := by
  cases D <;> simp only [worldPos, edgeEnd, shift, Vec3.set, Vec3.get] <;> ext <;> push_cast <;> ring

/-- Every crossing edge carries a zero of a continuous field. -/
theorem crossing_zero {f : ScalarField ℝ} (hf : AxisContinuous f) {origin : Vec3 ℝ} {step : ℝ} (hstep : 0 < step) {D : Axis} {p : IVec3}
    (h : Crosses f (worldPos origin step) D p) : ∃ z, OnGridEdge origin step D p z ∧ f.value z = 0 := by
  obtain ⟨h1, -⟩ := C07_solver_precondition h
  set P := worldPos origin step p with hP
  rw [edgeEnd_world, ← hP] at h1
  have hP0 : P = P.set D (P.get D) := by cases D <;> rfl
  have h0 : (0 : ℝ) ∈ uIcc (f.value (P.set D (P.get D))) (f.value (P.set D (P.get D + step))) := by
    rw [← hP0, mem_uIcc]
    rcases mul_nonpos_iff.1 h1 with h | h
    · right; exact ⟨h.2, h.1⟩
    · left; exact h
  obtain ⟨c, hc, hc0⟩ := intermediate_value_uIcc (hf D P).continuousOn h0
  rw [uIcc_of_le (by linarith), mem_Icc] at hc
  refine ⟨_, ⟨(c - P.get D) / step, div_nonneg (by linarith) hstep.le, (div_le_one hstep).2 (by linarith), ?_⟩, hc0⟩
  rw [div_mul_cancel₀ _ hstep.ne', ← hP]
  congr 1; ring

/-- C69 (existence): with a field that is continuous along grid lines, every edge stored by `fill` carries a true zero of the field. -/
theorem C69_edge_zero {g g' : Grid ℝ} (hg : g.Reachable) (hstep : 0 < g.step) {f : ScalarField ℝ} (hf : AxisContinuous f)
    {sv : ZeroFinder ℝ} (h : g.fill f sv = some g') (D : Axis) (e : GridEdge ℝ) (he : e ∈ g'.edges D) :
    ∃ z, OnGridEdge g.globalPos g.step D e.lesser z ∧ f.value z = 0 := by
  obtain ⟨p, _, hc, rfl⟩ := ((C07_fill_edges hg h D).1 e).1 he
  exact crossing_zero hf hstep hc

/-- C69 (solvers): both zero finders stay on the edges. -/
theorem C69_solvers (f : ScalarField ℝ) (nan : ℝ) (steps : Int) (origin : Vec3 ℝ) {step : ℝ} (hstep : 0 < step) :
    StaysOnEdges f (bisectionFinder steps) origin step ∧ StaysOnEdges f (regulaFalsiFinder nan steps) origin step := by
  constructor
  · intro D p hc
    have hle : (worldPos origin step p).get D ≤ (worldPos origin step (edgeEnd D p)).get D := by
      cases D <;> simp [worldPos, edgeEnd, shift, Vec3.get] <;> nlinarith
    have key : crossingCoord f (bisectionFinder steps) (worldPos origin step) D p ∈
        uIcc ((worldPos origin step p).get D) ((worldPos origin step (edgeEnd D p)).get D) := by
      cases D
      · exact C11_in_segment steps .X _ _ _ _ _ _ f
      · exact C11_in_segment steps .Y _ _ _ _ _ _ f
      · exact C11_in_segment steps .Z _ _ _ _ _ _ f
    rw [uIcc_of_le hle] at key
    exact key
  · intro D p hc
    have hend := edgeEnd_world origin step D p
    obtain ⟨h1, h2⟩ := C07_solver_precondition hc
    unfold Crosses at hc
    rw [hend] at hc h1 h2 ⊢
    set P := worldPos origin step p with hP
    have hge : (P.set D (P.get D + step)).get D = P.get D + step := by cases D <;> rfl
    have hco : crossingCoord f (regulaFalsiFinder nan steps) (worldPos origin step) D p =
        (rfFind steps D P.x P.y P.z (P.get D + step) (f.value P) (f.value (P.set D (P.get D + step))) f).getD nan := by
      unfold crossingCoord
      rw [hend, ← hP]
      cases D <;> rfl
    rw [hco, hge]
    by_cases a0 : f.value P = 0
    · have b0 : f.value (P.set D (P.get D + step)) ≠ 0 := by
        intro b0; rw [a0, b0] at h2; simp at h2
      rw [(C12_zero_endpoint steps D P.x P.y P.z (P.get D + step) f (f.value P) _ rfl rfl).1 a0 b0]
      exact ⟨le_rfl, by simp only [Option.getD_some]; linarith⟩
    · by_cases b0 : f.value (P.set D (P.get D + step)) = 0
      · rw [(C12_zero_endpoint steps D P.x P.y P.z (P.get D + step) f (f.value P) _ rfl rfl).2 b0 a0]
        exact ⟨by simp only [Option.getD_some]; linarith, le_rfl⟩
      · obtain ⟨l, r, -, hr, hlast, hlen, -, -, hb, -⟩ := C12_regula_falsi steps D P.x P.y P.z (P.get D + step) (f.value P)
          (f.value (P.set D (P.get D + step))) f (by show P.get D ≠ _; linarith)
          (lt_of_le_of_ne h1 (mul_ne_zero a0 b0))
        rw [hr]
        have := hb r (List.mem_of_getLast? hlast)
        have e1 : (⟨P.x, P.y, P.z⟩ : Vec3 ℝ).get D = P.get D := rfl
        rw [e1, min_eq_left (by linarith), max_eq_right (by linarith)] at this
        exact ⟨this.1.le, this.2.le⟩

/-- A triangle whose vertices differ from `z` by at most `s` in every coordinate is within `√3 s` of `z`. -/
theorem near_of_box {a b c q z : Vec3 ℝ} {s : ℝ}
    (ha : ∀ D : Axis, |a.get D - z.get D| ≤ s) (hb : ∀ D : Axis, |b.get D - z.get D| ≤ s) (hc : ∀ D : Axis, |c.get D - z.get D| ≤ s)
    (hq : InTriangle a b c q) : dist2 q z ≤ 3 * s ^ 2 := by
  obtain ⟨α, β, γ, h1, h2, h3, hs, rfl⟩ := hq
  have hg : γ = 1 - α - β := by linarith
  have key : ∀ x y w u : ℝ, |x - u| ≤ s → |y - u| ≤ s → |w - u| ≤ s → (α * x + β * y + γ * w - u) ^ 2 ≤ s ^ 2 := by
    intro x y w u hx hy hw
    have hx := abs_le.1 hx
    have hy := abs_le.1 hy
    have hw := abs_le.1 hw
    have e : α * x + β * y + γ * w - u = α * (x - u) + β * (y - u) + γ * (w - u) := by rw [hg]; ring
    have hs' : s = α * s + β * s + γ * s := by rw [← add_mul, ← add_mul, hs, one_mul]
    rw [e]
    apply sq_le_sq'
    · have := mul_le_mul_of_nonneg_left hx.1 h1
      have := mul_le_mul_of_nonneg_left hy.1 h2
      have := mul_le_mul_of_nonneg_left hw.1 h3
      linarith
    · have := mul_le_mul_of_nonneg_left hx.2 h1
      have := mul_le_mul_of_nonneg_left hy.2 h2
      have := mul_le_mul_of_nonneg_left hw.2 h3
      linarith
  have kx := key _ _ _ _ (ha .X) (hb .X) (hc .X)
  have ky := key _ _ _ _ (ha .Y) (hb .Y) (hc .Y)
  have kz := key _ _ _ _ (ha .Z) (hb .Z) (hc .Z)
  simp only [Vec3.get] at kx ky kz
  simp only [dist2]
  linarith

theorem cellVertices_get {P q : IVec3} (h : q ∈ cellVertices P) (A : Axis) : P.get A ≤ q.get A ∧ q.get A ≤ P.get A + 1 := by
  simp only [cellVertices, List.mem_cons, List.not_mem_nil, or_false, shift] at h
  rcases h with rfl | rfl | rfl | rfl | rfl | rfl | rfl | rfl <;> cases A <;> simp [IVec3.get]

theorem edgeEnd_get (D A : Axis) (p : IVec3) : (edgeEnd D p).get A = p.get A + if A = D then 1 else 0 := by
  cases D <;> cases A <;> simp [edgeEnd, shift, IVec3.get]

theorem worldPos_get (origin : Vec3 ℝ) (step : ℝ) (p : IVec3) (A : Axis) :
    (worldPos origin step p).get A = p.get A * step + origin.get A := by cases A <;> rfl

theorem meshToWorld_get (r : PlacedMesh ℝ) (p : Vec3 ℝ) (A : Axis) :
    (meshToWorld r p).get A = p.get A * r.globalScale + r.globalPos.get A := by cases A <;> rfl

theorem vec3_get_set (v : Vec3 ℝ) (D A : Axis) (c : ℝ) : (v.set D c).get A = if A = D then c else v.get A := by
  cases D <;> cases A <;> simp [Vec3.set, Vec3.get]

/-- Coordinates of a point of a grid edge. -/
theorem onGridEdge_get {origin : Vec3 ℝ} {step : ℝ} {D : Axis} {p : IVec3} {z : Vec3 ℝ}
    (hz : OnGridEdge origin step D p z) : ∃ s : ℝ, 0 ≤ s ∧ s ≤ 1 ∧
      ∀ A, z.get A = (p.get A + if A = D then s else 0) * step + origin.get A := by
  obtain ⟨s, s0, s1, rfl⟩ := hz
  refine ⟨s, s0, s1, fun A => ?_⟩
  rw [vec3_get_set, worldPos_get, worldPos_get]
  split_ifs with h
  · subst h; ring
  · ring

/-- A point of a cell and a point of one of its edges differ by at most one step in every coordinate. -/
theorem cell_edge_near {origin : Vec3 ℝ} {step : ℝ} (hstep : 0 < step) {D : Axis} {p P : IVec3} {z : Vec3 ℝ}
    (hz : OnGridEdge origin step D p z) (he : EdgeOfCell P D p) {v : Vec3 ℝ} (hv : InCell P v) {r : PlacedMesh ℝ}
    (hr1 : r.globalPos = origin) (hr2 : r.globalScale = step) (A : Axis) :
    |(meshToWorld r v).get A - z.get A| ≤ step := by
  obtain ⟨s, s0, s1, hz⟩ := onGridEdge_get hz
  have hp := cellVertices_get (he p (by cases D <;> simp [edgeVertices])) A
  have hp' := cellVertices_get (he (edgeEnd D p) (by cases D <;> simp [edgeVertices, edgeEnd])) A
  rw [edgeEnd_get] at hp'
  have hv := hv A
  rw [hz, meshToWorld_get, hr1, hr2]
  have h1 : (P.get A : ℝ) ≤ p.get A := by exact_mod_cast hp.1
  have h2 : (p.get A : ℝ) ≤ P.get A + 1 := by exact_mod_cast hp.2
  have h3 : (p.get A : ℝ) + (if A = D then 1 else 0) ≤ P.get A + 1 := by exact_mod_cast hp'.2
  have key : |v.get A - (p.get A + if A = D then s else 0)| ≤ 1 := by
    rw [abs_le]
    split_ifs at * <;> constructor <;> linarith [hv.1, hv.2]
  have e : v.get A * step + origin.get A - ((p.get A + if A = D then s else 0) * step + origin.get A) =
      (v.get A - (p.get A + if A = D then s else 0)) * step := by ring
  rw [e, abs_mul, abs_of_pos hstep]
  nlinarith

/-- C69 (marching cubes): every point of the mesh of a field that is continuous along grid lines is within `√3` steps of a true zero of
the field, if the zero finder stays on the edges. -/
theorem C69_marching_cubes {g g' : Grid ℝ} (hg : g.Reachable) (hstep : 0 < g.step) {f : ScalarField ℝ} (hf : AxisContinuous f)
    (hp : ProperField f) {sv : ZeroFinder ℝ} (hsv : StaysOnEdges f sv g.globalPos g.step) (h : g.fill f sv = some g')
    (nrm : Vec3 ℝ → Vec3 ℝ) {r : PlacedMesh ℝ} (hr : marchingCubes nrm g' = some r) :
    ∀ t ∈ triangles r.mesh.indices, ∃ z, f.value z = 0 ∧ ∀ q, OnMeshTriangle r t q → dist2 q z ≤ 3 * g.step ^ 2 := by
  have hF := C07_filled hg hp h
  obtain ⟨g'', hfill, ⟨-, -, hpos, hst⟩, -⟩ := C06_fill_materials hg f sv
  rw [h] at hfill; cases hfill
  obtain ⟨r', hr', r1, r2, hlen, hv, -, ht, -⟩ := C15_valid hF nrm
  rw [hr] at hr'; cases hr'
  intro t htm
  obtain ⟨l1, l2, l3, -, -, -, c, hc, hce⟩ := ht t htm
  obtain ⟨e0, he0, hq0⟩ := hce t.1 (Or.inl rfl)
  have hm0 := (mem_edgeList hF).1 (List.mem_of_getElem? he0)
  obtain ⟨z, hz, hz0⟩ := C69_edge_zero hg hstep hf h e0.axis e0 hm0
  have hvert : ∀ v, (v = t.1 ∨ v = t.2.1 ∨ v = t.2.2) → ∀ a, r.mesh.vertices[v]? = some a → ∀ A : Axis,
      |(meshToWorld r a.position).get A - z.get A| ≤ g.step := by
    intro v hvt a ha
    obtain ⟨e, he, hq⟩ := hce v hvt
    rw [hv v e he] at ha
    cases ha
    have hm := (mem_edgeList hF).1 (List.mem_of_getElem? he)
    obtain ⟨p, hpin, hcr, hep⟩ := ((C07_fill_edges hg h e.axis).1 e).1 hm
    have hoff := C07_offset hstep (hsv e.axis p hcr)
    rw [← hep] at hoff
    have hpt := C15_point_on_edge e hoff.1 hoff.2
    apply cell_edge_near hstep hz hq0 _ (by rw [r1, hpos]) (by rw [r2, hst])
    intro A
    have hc1 := cellVertices_get (hq e.lesser (by cases e.axis <;> simp [edgeVertices])) A
    have hc2 := cellVertices_get (hq (edgeEnd e.axis e.lesser) (by cases e.axis <;> simp [edgeVertices, edgeEnd])) A
    have k1 : (c.get A : ℝ) ≤ e.lesser.get A := by exact_mod_cast hc1.1
    have k2 : (e.lesser.get A : ℝ) ≤ c.get A + 1 := by exact_mod_cast hc1.2
    have k3 : ((edgeEnd e.axis e.lesser).get A : ℝ) ≤ c.get A + 1 := by exact_mod_cast hc2.2
    by_cases hA : A = e.axis
    · subst hA
      exact ⟨by linarith [hpt.1], by linarith [hpt.2.1]⟩
    · dsimp only
      rw [hpt.2.2 A hA]
      exact ⟨k1, k2⟩
  refine ⟨z, hz0, ?_⟩
  rintro q ⟨a, b, d, ha, hb, hd, hq⟩
  exact near_of_box (hvert _ (Or.inl rfl) _ ha) (hvert _ (Or.inr (Or.inl rfl)) _ hb) (hvert _ (Or.inr (Or.inr rfl)) _ hd) hq

theorem edge_of_around {D : Axis} {p c : IVec3} (h : c ∈ cellsAroundEdge D p) : EdgeOfCell c D p := by
  intro q hq
  exact (C04_around_edge_geometry D p).2.1 c h q hq

/-- C69 (uniform dual contouring): every point of the mesh is within `√3` steps of a true zero of the field, whatever the zero finder and
the options of the QEF solver. -/
theorem C69_dual_contouring {g g' : Grid ℝ} (hg : g.Reachable) (hstep : 0 < g.step) {f : ScalarField ℝ} (hf : AxisContinuous f)
    (hp : ProperField f) {sv : ZeroFinder ℝ} (h : g.fill f sv = some g') {env : DcEnv ℝ} (hsort : IsSort env.srt) {solver q : Qef ℝ 3}
    (hpinv : 0 < solver.pinvTolerance) {r : PlacedMesh ℝ} (hr : dualContouring env g' solver = some (q, r)) :
    ∀ t ∈ triangles r.mesh.indices, ∃ z, f.value z = 0 ∧ ∀ q, OnMeshTriangle r t q → dist2 q z ≤ 3 * g.step ^ 2 := by
  have hF := C07_filled hg hp h
  obtain ⟨g'', hfill, ⟨-, -, hpos, hst⟩, -⟩ := C06_fill_materials hg f sv
  rw [h] at hfill; cases hfill
  obtain ⟨⟨cells, hcells⟩, q', r', hr', r1, r2, -, hv⟩ := C18_vertices (env := env) hF hsort hpinv
  rw [hr] at hr'; cases hr'
  obtain ⟨-, htri, hin, -⟩ := C19_quads hF hsort hpinv hr hcells
  obtain ⟨hvl, hv⟩ := hv cells hcells
  intro t htm
  rw [htri] at htm
  obtain ⟨e, he, hte⟩ := List.mem_flatMap.1 htm
  unfold edgeQuad at hte
  split_ifs at hte with hall
  swap
  · simp at hte
  have hint : InteriorEdge g'.maxCoord e.axis e.lesser := by
    intro c hc
    exact of_decide_eq_true ((List.all_eq_true.1 hall) c hc)
  have hcm := hin e he hint
  obtain ⟨z, hz, hz0⟩ := C69_edge_zero hg hstep hf h e.axis e ((mem_edgeList hF).1 he)
  have hvert : ∀ c ∈ cellsAroundEdge e.axis e.lesser, ∀ a, r.mesh.vertices[cells.idxOf c]? = some a → ∀ A : Axis,
      |(meshToWorld r a.position).get A - z.get A| ≤ g.step := by
    intro c hc a ha
    have hlt := List.idxOf_lt_length_of_mem (hcm c hc)
    obtain ⟨v, hv1, hv2⟩ := hv (cells.idxOf c) c (by rw [List.getElem?_eq_getElem hlt, List.getElem_idxOf])
    rw [ha] at hv1; cases hv1
    apply cell_edge_near hstep hz (edge_of_around hc) _ (by rw [r1, hpos]) (by rw [r2, hst])
    intro A
    cases A
    exacts [hv2.inside_x, hv2.inside_y, hv2.inside_z]
  refine ⟨z, hz0, ?_⟩
  rintro q ⟨a, b, d, ha, hb, hd, hq⟩
  obtain ⟨c0, c1, c2, c3, hcs, -⟩ := (C04_around_edge_geometry e.axis e.lesser).2.2
  rw [hcs] at hte hvert
  simp only [List.map_cons, List.map_nil, quadTriangles] at hte
  have v0 := hvert c0 (by simp)
  have v1 := hvert c1 (by simp)
  have v2 := hvert c2 (by simp)
  have v3 := hvert c3 (by simp)
  split_ifs at hte <;> simp only [List.mem_cons, List.not_mem_nil, or_false] at hte <;> rcases hte with rfl | rfl <;>
    exact near_of_box (by first | exact v0 _ ha | exact v1 _ ha) (by first | exact v1 _ hb | exact v2 _ hb | exact v3 _ hb)
      (by first | exact v3 _ hd | exact v1 _ hd | exact v2 _ hd) hq

/-- C69 (vertices): with the bisection solver every vertex of the marching cubes mesh is within `step / 2 ^ n` of a true zero of the field on
its grid edge, where `n` is the number of steps of the solver. -/
theorem C69_vertex {g g' : Grid ℝ} (hg : g.Reachable) (hstep : 0 < g.step) {f : ScalarField ℝ} (hf : AxisContinuous f)
    (hp : ProperField f) {steps : Int} (h : g.fill f (bisectionFinder steps) = some g')
    (nrm : Vec3 ℝ → Vec3 ℝ) {r : PlacedMesh ℝ} (hr : marchingCubes nrm g' = some r) (v : MeshVertex ℝ) (hv : v ∈ r.mesh.vertices) :
    ∃ D p z, OnGridEdge g.globalPos g.step D p z ∧ Crosses f (worldPos g.globalPos g.step) D p ∧ f.value z = 0 ∧
      OnGridEdge g.globalPos g.step D p (meshToWorld r v.position) ∧
      dist2 (meshToWorld r v.position) z ≤ (g.step / 2 ^ stepCount steps) ^ 2 := by
  have hF := C07_filled hg hp h
  obtain ⟨g'', hfill, ⟨-, -, hpos, hst⟩, -⟩ := C06_fill_materials hg f (bisectionFinder steps)
  rw [h] at hfill; cases hfill
  obtain ⟨r', hr', r1, r2, hlen, hvs, -⟩ := C15_valid hF nrm
  rw [hr] at hr'; cases hr'
  obtain ⟨k, hk, rfl⟩ := List.getElem_of_mem hv
  have hk' : k < (edgeList g').length := by
    rw [hlen] at hk; simpa [edgeList, Nat.add_assoc] using hk
  have hke := List.getElem?_eq_getElem hk'
  set e := (edgeList g')[k] with hedef
  have hve := hvs k e hke
  rw [List.getElem?_eq_getElem hk, Option.some.injEq] at hve
  rw [hve]
  have hm := (mem_edgeList hF).1 (List.mem_of_getElem? hke)
  obtain ⟨p, hpin, hcr, hep⟩ := ((C07_fill_edges hg h e.axis).1 e).1 hm
  have hpl : e.lesser = p := by rw [hep]; rfl
  have hposn := C15_vertex_position hg h hstep.ne' hm
  have hmw : meshToWorld r e.surfacePoint = g'.localToGlobal e.surfacePoint := by
    simp only [meshToWorld, Grid.localToGlobal, r1, r2]
  have hsolv := (C69_solvers f 0 steps g.globalPos hstep).1 e.axis p hcr
  obtain ⟨hs1, -⟩ := C07_solver_precondition hcr
  set D := e.axis with hD
  have hend := edgeEnd_world g.globalPos g.step D p
  rw [hpl] at hposn
  set P := worldPos g.globalPos g.step p with hP
  have hco : crossingCoord f (bisectionFinder steps) (worldPos g.globalPos g.step) D p =
      bisectFind steps D P.x P.y P.z (P.get D + g.step) (f.value P) (f.value (P.set D (P.get D + g.step))) f := by
    unfold crossingCoord
    rw [hend, ← hP]
    cases D <;> rfl
  rw [hend] at hs1 hsolv
  have hge : (P.set D (P.get D + g.step)).get D = P.get D + g.step := by cases D <;> rfl
  rw [hge] at hsolv
  obtain ⟨c, hc, hc0, hcd⟩ := C11_bisection steps D P.x P.y P.z (P.get D + g.step) f (hf D P).continuousOn hs1
  have e1 : (⟨P.x, P.y, P.z⟩ : Vec3 ℝ) = P := rfl
  rw [e1] at hc hc0 hcd
  rw [uIcc_of_le (by linarith), mem_Icc] at hc
  rw [add_sub_cancel_left, abs_of_pos hstep, ← hco] at hcd
  have seg : ∀ c, P.get D ≤ c → c ≤ P.get D + g.step → OnGridEdge g.globalPos g.step D p (P.set D c) := by
    intro c h1 h2
    refine ⟨(c - P.get D) / g.step, div_nonneg (by linarith) hstep.le, (div_le_one hstep).2 (by linarith), ?_⟩
    rw [div_mul_cancel₀ _ hstep.ne', ← hP]
    congr 1; ring
  refine ⟨D, p, P.set D c, seg c hc.1 hc.2, hcr, hc0, ?_, ?_⟩
  · show OnGridEdge _ _ D p (meshToWorld r e.surfacePoint)
    rw [hmw, hposn]; exact seg _ hsolv.1 hsolv.2
  · show dist2 (meshToWorld r e.surfacePoint) _ ≤ _
    rw [hmw, hposn]
    have : dist2 (P.set D (crossingCoord f (bisectionFinder steps) (worldPos g.globalPos g.step) D p)) (P.set D c) =
        |crossingCoord f (bisectionFinder steps) (worldPos g.globalPos g.step) D p - c| ^ 2 := by
      rw [sq_abs]
      cases D <;> simp [dist2, Vec3.set]
    rw [this]
    exact pow_le_pow_left₀ (abs_nonneg _) hcd 2

/-- Non-vacuity: the ball field on a grid of size two, with a surface that has points. -/
example : ∃ g g' : Grid ℝ, g.Reachable ∧ 0 < g.step ∧ AxisContinuous ballField ∧ ProperField ballField ∧
    StaysOnEdges ballField (bisectionFinder 4) g.globalPos g.step ∧ g.fill ballField (bisectionFinder 4) = some g' ∧
    ∃ r, marchingCubes id g' = some r ∧ triangles r.mesh.indices ≠ [] := by
  obtain ⟨g, hg⟩ := (C01_ctor_accepts 2 (⟨0, 0, 0⟩ : Vec3 ℝ) 1).2 ⟨⟨1, rfl⟩, by norm_num, by norm_num⟩
  have hre : g.Reachable := .mk hg
  have hgp : g.globalPos = ⟨0, 0, 0⟩ ∧ g.step = 1 ∧ g.maxCoord = 1 := by
    cases hg; exact ⟨rfl, rfl, rfl⟩
  have hprop : ProperField ballField := by intro q _; simp [ballField]
  obtain ⟨g', hfill, ⟨hsz, hhf, hpos, hst⟩, hat⟩ := C06_fill_materials hre ballField (bisectionFinder 4)
  have hF := C07_filled hre hprop hfill
  obtain ⟨r, hr, -, -, hlen, -, -, -, hused⟩ := C15_valid hF id
  refine ⟨g, g', hre, by rw [hgp.2.1]; norm_num, ?_, hprop, (C69_solvers _ 0 _ _ (by rw [hgp.2.1]; norm_num)).1, hfill, r, hr, ?_⟩
  · intro D p; cases D <;> simp only [ballField, Vec3.set] <;> fun_prop
  · intro hnil
    have hcr : Crosses ballField (worldPos g.globalPos g.step) .X ⟨0, 0, 0⟩ := by
      unfold Crosses
      rw [hgp.1, hgp.2.1]
      simp only [edgeEnd, shift]
      rw [ball_value, ball_value]
      simp
    have hmem := ((C07_fill_edges hre hfill .X).1 _).2 ⟨⟨0, 0, 0⟩, by
      rw [hgp.2.2]; intro v hv; simp only [edgeVertices, shift, List.mem_cons, List.not_mem_nil, or_false] at hv
      rcases hv with rfl | rfl <;> decide, hcr, rfl⟩
    have hpos' : 0 < r.mesh.vertices.length := by
      rw [hlen]
      have := List.length_pos_of_mem hmem
      omega
    obtain ⟨t, ht, -⟩ := hused 0 hpos'
    rw [hnil] at ht
    simp at ht

end Isomesh
