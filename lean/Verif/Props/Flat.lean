import Verif.Spec.Flat
import Verif.Proofs.FlatQef
import Verif.Props.Accuracy
import Verif.Props.EdgeNormal
import Verif.Props.UniformDC

/-! C70: flat surfaces are reproduced exactly (uniform grids). -/

namespace Isomesh

open Spec Set

theorem plane_axis {f : ScalarField ℝ} {n : Vec3 ℝ} {d : ℝ} (hf : PlaneField f n d) (D : Axis) (P : Vec3 ℝ) (c : ℝ) :
    f.value (P.set D c) = (f.value P - n.get D * P.get D) + n.get D * c := by
  rw [hf.value, hf.value]
  cases D <;> simp only [Vec3.set, Vec3.get] <;> ring

/-- C70 (zero finder): on a plane the regula falsi solver finds the crossing of every edge exactly. -/
theorem C70_crossing {f : ScalarField ℝ} {n : Vec3 ℝ} {d : ℝ} (hf : PlaneField f n d) (nan : ℝ) (steps : Int) {origin : Vec3 ℝ} {step : ℝ}
    (hstep : 0 < step) {D : Axis} {p : IVec3} (hc : Crosses f (worldPos origin step) D p) :
    f.value ((worldPos origin step p).set D (crossingCoord f (regulaFalsiFinder nan steps) (worldPos origin step) D p)) = 0 := by
  have hend := edgeEnd_world origin step D p
  unfold Crosses at hc
  rw [hend] at hc
  set P := worldPos origin step p with hP
  have hco : crossingCoord f (regulaFalsiFinder nan steps) (worldPos origin step) D p =
      (rfFind steps D P.x P.y P.z (P.get D + step) (f.value P) (f.value (P.set D (P.get D + step))) f).getD nan := by
    unfold crossingCoord
    rw [hend, ← hP]
    cases D <;> rfl
  have haff := plane_axis hf D P
  have hβ : n.get D ≠ 0 := by
    intro h0
    apply hc
    rw [haff, h0]; simp
  have e1 : (⟨P.x, P.y, P.z⟩ : Vec3 ℝ) = P := rfl
  have := C12_affine_exact steps D P.x P.y P.z (P.get D + step) f _ _ hβ (by rw [e1]; linarith) (by rw [e1]; exact haff)
  rw [e1] at this
  rw [hco, this, Option.getD_some, haff]
  field_simp
  ring

theorem onTriangle_zero {f : ScalarField ℝ} {n : Vec3 ℝ} {d : ℝ} (hf : PlaneField f n d) {r : PlacedMesh ℝ}
    (h : ∀ v ∈ r.mesh.vertices, f.value (meshToWorld r v.position) = 0) : ExactlyOn f r := by
  refine ⟨h, ?_⟩
  rintro t - q ⟨a, b, c, ha, hb, hc, α, β, γ, -, -, -, hsum, rfl⟩
  have h1 := h a (List.mem_of_getElem? ha)
  have h2 := h b (List.mem_of_getElem? hb)
  have h3 := h c (List.mem_of_getElem? hc)
  rw [hf.value] at *
  dsimp only
  linear_combination α * h1 + β * h2 + γ * h3 + (-d) * hsum

section
variable {g g' : Grid ℝ} {f : ScalarField ℝ} {n : Vec3 ℝ} {d nan : ℝ} {steps : Int}

/-- The stored edges: their surface points are on the plane and on the edge, the gradients are those of the plane. -/
theorem plane_edge (hg : g.Reachable) (hstep : 0 < g.step) (hf : PlaneField f n d) (hp : ProperField f)
    (h : g.fill f (regulaFalsiFinder nan steps) = some g') {e : GridEdge ℝ} (he : e ∈ edgeList g') :
    e.gradient = n ∧ f.value (g'.localToGlobal e.surfacePoint) = 0 ∧ 0 ≤ e.offset ∧ e.offset ≤ 1 := by
  have hF := C07_filled hg hp h
  have hm := (mem_edgeList hF).1 he
  obtain ⟨p, hpin, hcr, hep⟩ := ((C07_fill_edges hg h e.axis).1 e).1 hm
  have hpl : e.lesser = p := by rw [hep]; rfl
  have hposn := C15_vertex_position hg h hstep.ne' hm
  have hoff := C07_offset hstep ((C69_solvers f nan steps g.globalPos hstep).2 e.axis p hcr)
  rw [← hep] at hoff
  refine ⟨?_, ?_, hoff⟩
  · rw [hep]; exact hf.grad _
  · rw [hposn, hpl]; exact C70_crossing hf nan steps hstep hcr

/-- C70 (marching cubes): with the regula falsi solver and any number of steps the mesh of a plane lies on the plane, and all normals are
those of the gradient. -/
theorem C70_marching_cubes (hg : g.Reachable) (hstep : 0 < g.step) (hf : PlaneField f n d) (hp : ProperField f)
    (h : g.fill f (regulaFalsiFinder nan steps) = some g') (nrm : Vec3 ℝ → Vec3 ℝ) {r : PlacedMesh ℝ} (hr : marchingCubes nrm g' = some r) :
    ExactlyOn f r ∧ ∀ v ∈ r.mesh.vertices, v.normal = nrm n := by
  have hF := C07_filled hg hp h
  obtain ⟨r', hr', r1, r2, hlen, hvs, -⟩ := C15_valid hF nrm
  rw [hr] at hr'; cases hr'
  have key : ∀ v ∈ r.mesh.vertices, f.value (meshToWorld r v.position) = 0 ∧ v.normal = nrm n := by
    intro v hv
    obtain ⟨k, hk, rfl⟩ := List.getElem_of_mem hv
    have hk' : k < (edgeList g').length := by
      rw [hlen] at hk; simpa [edgeList, Nat.add_assoc] using hk
    have hke := List.getElem?_eq_getElem hk'
    have hve := hvs k _ hke
    rw [List.getElem?_eq_getElem hk, Option.some.injEq] at hve
    rw [hve]
    have hmw : ∀ x, meshToWorld r x = g'.localToGlobal x := by
      intro x; simp only [meshToWorld, Grid.localToGlobal, r1, r2]
    obtain ⟨e1, e2, -⟩ := plane_edge hg hstep hf hp h (List.getElem_mem hk')
    dsimp only
    rw [hmw, e1]
    exact ⟨e2, rfl⟩
  exact ⟨onTriangle_zero hf fun v hv => (key v hv).1, fun v hv => (key v hv).2⟩

/-- Equation of the plane in the coordinates of the grid, scaled to the stored normal. -/
noncomputable def planeRow (env : DcEnv ℝ) (g : Grid ℝ) (n : Vec3 ℝ) (d s : ℝ) : Fin 4 → ℝ :=
  ![(edgeNormal env.eps n).x, (edgeNormal env.eps n).y, (edgeNormal env.eps n).z,
    -(s * (n.x * g.globalPos.x + n.y * g.globalPos.y + n.z * g.globalPos.z + d)) / g.step]

theorem planeRow_flat {env : DcEnv ℝ} (hn : GoodDirection env n) (hf : PlaneField f n d) {s : ℝ} (hs : 0 < s)
    (hs' : edgeNormal env.eps n = ⟨s * n.x, s * n.y, s * n.z⟩) : FlatRow (d := 3) env.tiny (planeRow env g n d s) where
  size := by
    intro i
    fin_cases i
    · exact hn.size .X
    · exact hn.size .Y
    · exact hn.size .Z
  nonzero := by
    by_contra hcon
    push Not at hcon
    apply hf.nonzero
    have h0 := hcon 0
    have h1 := hcon 1
    have h2 := hcon 2
    simp only [planeRow, hs'] at h0 h1 h2
    have e0 : s * n.x = 0 := h0
    have e1 : s * n.y = 0 := h1
    have e2 : s * n.z = 0 := h2
    ext
    · exact (mul_eq_zero.1 e0).resolve_left hs.ne'
    · exact (mul_eq_zero.1 e1).resolve_left hs.ne'
    · exact (mul_eq_zero.1 e2).resolve_left hs.ne'

theorem planeRow_iff {env : DcEnv ℝ} (hstep : 0 < g.step) (hf : PlaneField f n d) {s : ℝ} (hs : 0 < s)
    (hs' : edgeNormal env.eps n = ⟨s * n.x, s * n.y, s * n.z⟩) (x : Vec3 ℝ) :
    ∑ i : Fin 3, planeRow env g n d s i.castSucc * x.toVecN i = planeRow env g n d s (Fin.last 3) ↔ f.value (g.localToGlobal x) = 0 := by
  rw [hf.value]
  simp only [Fin.sum_univ_three, Grid.localToGlobal]
  show (edgeNormal env.eps n).x * x.x + (edgeNormal env.eps n).y * x.y + (edgeNormal env.eps n).z * x.z =
    -(s * (n.x * g.globalPos.x + n.y * g.globalPos.y + n.z * g.globalPos.z + d)) / g.step ↔ _
  rw [hs', eq_div_iff hstep.ne']
  constructor
  · intro h
    have : s * (n.x * (x.x * g.step + g.globalPos.x) + n.y * (x.y * g.step + g.globalPos.y) + n.z * (x.z * g.step + g.globalPos.z) + d) = 0 := by
      linear_combination h
    exact (mul_eq_zero.1 this).resolve_left hs.ne'
  · intro h
    linear_combination s * h

theorem length_smul (n : Vec3 ℝ) {t : ℝ} (ht : 0 ≤ t) : (⟨t * n.x, t * n.y, t * n.z⟩ : Vec3 ℝ).length = t * n.length := by
  simp only [Vec3.length]
  have : t * n.x * (t * n.x) + t * n.y * (t * n.y) + t * n.z * (t * n.z) = t ^ 2 * (n.x * n.x + n.y * n.y + n.z * n.z) := by ring
  rw [this, elem_sqrt, elem_sqrt, Real.sqrt_mul (sq_nonneg t), Real.sqrt_sq ht]

theorem normalize_smul {normalize : Vec3 ℝ → Vec3 ℝ} (hn : TrueNormalize normalize) {n : Vec3 ℝ} (h0 : n ≠ ⟨0, 0, 0⟩) {t : ℝ} (ht : 0 < t) :
    normalize ⟨t * n.x, t * n.y, t * n.z⟩ = unitVec n := by
  rw [hn]
  · rw [length_smul n ht.le]
    simp only [unitVec, mul_div_mul_left _ _ ht.ne']
  · intro h
    apply h0
    rw [Vec3.mk.injEq] at h
    ext
    · exact (mul_eq_zero.1 h.1).resolve_left ht.ne'
    · exact (mul_eq_zero.1 h.2.1).resolve_left ht.ne'
    · exact (mul_eq_zero.1 h.2.2).resolve_left ht.ne'

theorem foldl_add_const {α : Type} (l : List α) (F : α → Vec3 ℝ) {m : Vec3 ℝ} (h : ∀ a ∈ l, F a = m) (z : Vec3 ℝ) :
    (l.map F).foldl Vec3.add z = ⟨z.x + l.length * m.x, z.y + l.length * m.y, z.z + l.length * m.z⟩ := by
  induction l generalizing z with
  | nil => simp
  | cons a l ih =>
    rw [List.map_cons, List.foldl_cons, ih fun b hb => h b (by simp [hb]), h a (by simp)]
    simp only [Vec3.add, List.length_cons]
    push_cast
    ext <;> dsimp only <;> ring

theorem unitVec_ne {n : Vec3 ℝ} (h : n ≠ ⟨0, 0, 0⟩) : 0 < n.length := by
  rw [Vec3.length, elem_sqrt, Real.sqrt_pos]
  by_contra hcon
  apply h
  have h1 := mul_self_nonneg n.x
  have h2 := mul_self_nonneg n.y
  have h3 := mul_self_nonneg n.z
  ext
  · exact mul_self_eq_zero.1 (by linarith)
  · exact mul_self_eq_zero.1 (by linarith)
  · exact mul_self_eq_zero.1 (by linarith)

theorem sub_edgeList_length {g : Grid ℝ} (h : Filled g) {es : List (GridEdge ℝ)} (hn : es.Nodup) (hs : ∀ e ∈ es, e ∈ edgeList g) :
    es.length < 4294967295 :=
  lt_of_le_of_lt (List.Subperm.length_le (hn.subperm hs)) (edgeList_length h)

/-- The planes of edges of one cell, on a plane. -/
theorem flat_cell_run (hg : g.Reachable) (hstep : 0 < g.step) (hf : PlaneField f n d) (hp : ProperField f)
    (h : g.fill f (regulaFalsiFinder nan steps) = some g') {env : DcEnv ℝ} (hn : GoodDirection env n) {s : ℝ} (hs : 0 < s)
    (hs' : edgeNormal env.eps n = ⟨s * n.x, s * n.y, s * n.z⟩) {P : IVec3} {es : List (GridEdge ℝ)} (hnd : es.Nodup)
    (hes : ∀ e ∈ es, e ∈ edgeList g' ∧ EdgeOfCell P e.axis e.lesser) {q0 q1 : Qef ℝ 3}
    (hr : runOps qef3Rows 30 env.tiny q0 (.reset :: es.map (planeOp env.eps)) = some q1) :
    FlatQ qef3Rows (planeRow env g' n d s) (cellLo P) (cellHi P) es.length q1 := by
  have hF := C07_filled hg hp h
  obtain ⟨g'', hfill, ⟨-, -, hpos, hst⟩, -⟩ := C06_fill_materials hg f (regulaFalsiFinder nan steps)
  rw [h] at hfill; cases hfill
  have hw := planeRow_flat (g := g') hn hf hs hs'
  rw [runOps, List.foldlM_cons] at hr
  simp only [QefOp.apply, Option.bind_eq_bind, Option.bind_some] at hr
  have hlen := sub_edgeList_length hF hnd fun e he => (hes e he).1
  have := flatQ_run_planes hn.tiny_pos hw (M := qef3Rows) (lo := cellLo P) (hi := cellHi P) (bits := 30) (by decide) es (fun e => e.surfacePoint.toVecN)
    (fun e => (edgeNormal env.eps e.gradient).toVecN) ?_ ?_ ?_ ?_ (flatQ_reset qef3Rows _ _ _ q0) (by omega) hr
  · simpa using this
  · intro e he i
    rw [(plane_edge hg hstep hf hp h (hes e he).1).1]
    fin_cases i <;> rfl
  · intro e he
    obtain ⟨e1, e2, -⟩ := plane_edge hg hstep hf hp h (hes e he).1
    have := (planeRow_iff (env := env) (by rw [hst]; exact hstep) hf hs hs' e.surfacePoint).2 e2
    rw [← this, e1]
    simp only [dotProduct]
    apply Finset.sum_congr rfl
    intro i _
    fin_cases i <;> rfl
  all_goals
    intro e he i
    obtain ⟨-, -, e3, e4⟩ := plane_edge hg hstep hf hp h (hes e he).1
    have hq := (hes e he).2
    have hpt := C15_point_on_edge e e3 e4
    have key : ∀ A : Axis, (P.get A : ℝ) ≤ e.surfacePoint.get A ∧ e.surfacePoint.get A ≤ P.get A + 1 := by
      intro A
      have hc1 := cellVertices_get (hq e.lesser (by cases e.axis <;> simp [edgeVertices])) A
      have hc2 := cellVertices_get (hq (edgeEnd e.axis e.lesser) (by cases e.axis <;> simp [edgeVertices, edgeEnd])) A
      have k1 : (P.get A : ℝ) ≤ e.lesser.get A := by exact_mod_cast hc1.1
      have k2 : (e.lesser.get A : ℝ) ≤ P.get A + 1 := by exact_mod_cast hc1.2
      have k3 : ((edgeEnd e.axis e.lesser).get A : ℝ) ≤ P.get A + 1 := by exact_mod_cast hc2.2
      by_cases hA : A = e.axis
      · subst hA
        exact ⟨by linarith [hpt.1], by linarith [hpt.2.1]⟩
      · rw [hpt.2.2 A hA]
        exact ⟨k1, k2⟩
    fin_cases i
    · first | exact (key .X).1 | exact (key .X).2
    · first | exact (key .Y).1 | exact (key .Y).2
    · first | exact (key .Z).1 | exact (key .Z).2

/-- C70 (uniform dual contouring): with the regula falsi solver, any number of steps and any options of the QEF solver, the mesh of a plane
lies on the plane, and its normals are the normal of the plane. -/
theorem C70_dual_contouring (hg : g.Reachable) (hstep : 0 < g.step) (hf : PlaneField f n d) (hp : ProperField f)
    (h : g.fill f (regulaFalsiFinder nan steps) = some g') {env : DcEnv ℝ} (hn : GoodDirection env n) (hsort : IsSort env.srt)
    {solver q : Qef ℝ 3} (hpinv : 0 < solver.pinvTolerance) {r : PlacedMesh ℝ} (hr : dualContouring env g' solver = some (q, r)) :
    ExactlyOn f r ∧ (TrueNormalize env.normalize → ∀ v ∈ r.mesh.vertices, v.normal = unitVec n) := by
  have hF := C07_filled hg hp h
  obtain ⟨g'', hfill, ⟨-, -, hpos, hst⟩, -⟩ := C06_fill_materials hg f (regulaFalsiFinder nan steps)
  rw [h] at hfill; cases hfill
  obtain ⟨⟨cells, hcells⟩, q', r', hr', r1, r2, -, hv⟩ := C18_vertices (env := env) hF hsort hpinv
  rw [hr] at hr'; cases hr'
  obtain ⟨hlen, hvs⟩ := hv cells hcells
  obtain ⟨s, hs, hs'⟩ := hn.exact
  have key : ∀ v ∈ r.mesh.vertices, f.value (meshToWorld r v.position) = 0 ∧ (TrueNormalize env.normalize → v.normal = unitVec n) := by
    intro v hvm
    obtain ⟨k, hk, rfl⟩ := List.getElem_of_mem hvm
    obtain ⟨v, e1, hd⟩ := hvs k _ (List.getElem?_eq_getElem (by rw [← hlen]; exact hk))
    rw [List.getElem?_eq_getElem hk, Option.some.injEq] at e1
    rw [e1]
    obtain ⟨es, q0, q1, q2, x, hnd, hes, -, hrun, hsol, hx, hnrm⟩ := hd.solution
    have hfq := flat_cell_run hg hstep hf hp h hn hs hs' hnd (fun e he => (hes e).1 he) hrun
    have hw := planeRow_flat (g := g') hn hf hs hs'
    obtain ⟨-, hon, -⟩ := flatQ_solve hn.tiny_pos hw hfq hsol
    constructor
    · have hmw : meshToWorld r v.position = g'.localToGlobal v.position := by
        simp only [meshToWorld, Grid.localToGlobal, r1, r2]
      rw [hmw, ← planeRow_iff (env := env) (by rw [hst]; exact hstep) hf hs hs', hx]
      exact hon
    · intro htn
      have hpos : 0 < es.length := by
        obtain ⟨q1', hc, hcnt, -⟩ := solve_eq hsol
        have h4 := (flatQ_compress hn.tiny_pos hw hfq hc).1.mass.bound
        omega
      rw [hnrm, foldl_add_const es _ (m := ⟨s * n.x, s * n.y, s * n.z⟩) fun e he => by
        rw [(plane_edge hg hstep hf hp h ((hes e).1 he).1).1, hs']]
      have := normalize_smul htn hf.nonzero (t := es.length * s) (by positivity)
      rw [← this]
      simp only [zero_add, mul_assoc]
  exact ⟨onTriangle_zero hf fun v hv => (key v hv).1, fun htn v hv => (key v hv).2 htn⟩

end

end Isomesh
