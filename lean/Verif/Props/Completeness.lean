import Verif.Spec.Completeness
import Verif.Props.Accuracy
import Verif.Props.DcDemo

/-! C88: no part of the surface that the grid can resolve is lost. -/

set_option linter.unusedSectionVars false

namespace Isomesh
open Spec

theorem int_change {α : Type} (s : Int → α) {a b : Int} (hab : a ≤ b) (h : s a ≠ s b) : ∃ c, a ≤ c ∧ c + 1 ≤ b ∧ s c ≠ s (c + 1) := by
  by_contra hc
  push Not at hc
  obtain ⟨n, rfl⟩ := Int.le.dest hab
  have : ∀ k : Nat, k ≤ n → s a = s (a + k) := by
    intro k
    induction k with
    | zero => simp
    | succ k ih =>
      intro hk
      rw [ih (by omega), hc (a + k) (by omega) (by omega)]
      congr 1; push_cast; ring
  exact h (this n le_rfl)

theorem int_change' {α : Type} (s : Int → α) {a b : Int} (h : s a ≠ s b) : ∃ c, min a b ≤ c ∧ c + 1 ≤ max a b ∧ s c ≠ s (c + 1) := by
  rcases le_total a b with hab | hab
  · obtain ⟨c, h1, h2, h3⟩ := int_change s hab h
    exact ⟨c, by omega, by omega, h3⟩
  · obtain ⟨c, h1, h2, h3⟩ := int_change s hab h.symm
    exact ⟨c, by omega, by omega, h3⟩

/-- Between two lattice points with different marks there is an edge with different marks, inside the box they span. -/
theorem box_change {α : Type} (s : IVec3 → α) {p q : IVec3} (h : s p ≠ s q) : ∃ D e, s e ≠ s (edgeEnd D e) ∧
    ∀ A : Axis, min (p.get A) (q.get A) ≤ e.get A ∧ (edgeEnd D e).get A ≤ max (p.get A) (q.get A) := by
  obtain ⟨px, py, pz⟩ := p
  obtain ⟨qx, qy, qz⟩ := q
  by_cases h1 : s ⟨px, py, pz⟩ = s ⟨qx, py, pz⟩
  · by_cases h2 : s ⟨qx, py, pz⟩ = s ⟨qx, qy, pz⟩
    · rw [h1, h2] at h
      obtain ⟨c, c1, c2, c3⟩ := int_change' (fun c => s ⟨qx, qy, c⟩) h
      refine ⟨.Z, ⟨qx, qy, c⟩, by simpa [edgeEnd, shift] using c3, fun A => ?_⟩
      cases A <;> simp only [IVec3.get, edgeEnd, shift] <;> omega
    · obtain ⟨c, c1, c2, c3⟩ := int_change' (fun c => s ⟨qx, c, pz⟩) h2
      refine ⟨.Y, ⟨qx, c, pz⟩, by simpa [edgeEnd, shift] using c3, fun A => ?_⟩
      cases A <;> simp only [IVec3.get, edgeEnd, shift] <;> omega
  · obtain ⟨c, c1, c2, c3⟩ := int_change' (fun c => s ⟨c, py, pz⟩) h1
    refine ⟨.X, ⟨c, py, pz⟩, by simpa [edgeEnd, shift] using c3, fun A => ?_⟩
    cases A <;> simp only [IVec3.get, edgeEnd, shift] <;> omega

theorem slot_of_edge {h : Int} (hh : 1 ≤ h) {D : Axis} {p : IVec3} (h0 : InCube h p) (h1 : InCube h (edgeEnd D p)) :
    ∃ P i, CellIn h P ∧ i < 12 ∧ slotEdge P i = ⟨D, p⟩ := by
  have keyX : ∀ a b : Bool, ∃ i < 12, slotAxis i = .X ∧ slotOff i = ⟨0, a.toNat, b.toNat⟩ := by decide +kernel
  have keyY : ∀ a b : Bool, ∃ i < 12, slotAxis i = .Y ∧ slotOff i = ⟨a.toNat, 0, b.toNat⟩ := by decide +kernel
  have keyZ : ∀ a b : Bool, ∃ i < 12, slotAxis i = .Z ∧ slotOff i = ⟨a.toNat, b.toNat, 0⟩ := by decide +kernel
  obtain ⟨x, y, z⟩ := p
  unfold InCube edgeEnd shift at *
  have hdec : ∀ c : Int, -h ≤ c → c ≤ h → ∃ a : Bool, -h ≤ c - a.toNat ∧ c - a.toNat + 1 ≤ h := by
    intro c c1 c2
    by_cases hc : c = h
    · exact ⟨true, by simp; omega, by simp; omega⟩
    · exact ⟨false, by simp; omega, by simp; omega⟩
  cases D <;> simp only [add_zero] at h0 h1
  · obtain ⟨a, a1, a2⟩ := hdec y (by omega) (by omega)
    obtain ⟨b, b1, b2⟩ := hdec z (by omega) (by omega)
    obtain ⟨i, hi, k1, k2⟩ := keyX a b
    refine ⟨⟨x, y - a.toNat, z - b.toNat⟩, i, ?_, hi, ?_⟩
    · intro v hv
      simp only [cellVertices, shift, List.mem_cons, List.not_mem_nil, or_false] at hv
      rcases hv with rfl | rfl | rfl | rfl | rfl | rfl | rfl | rfl <;> dsimp only [InCube] <;> omega
    · simp [slotEdge, k1, k2, shift]
  · obtain ⟨a, a1, a2⟩ := hdec x (by omega) (by omega)
    obtain ⟨b, b1, b2⟩ := hdec z (by omega) (by omega)
    obtain ⟨i, hi, k1, k2⟩ := keyY a b
    refine ⟨⟨x - a.toNat, y, z - b.toNat⟩, i, ?_, hi, ?_⟩
    · intro v hv
      simp only [cellVertices, shift, List.mem_cons, List.not_mem_nil, or_false] at hv
      rcases hv with rfl | rfl | rfl | rfl | rfl | rfl | rfl | rfl <;> dsimp only [InCube] <;> omega
    · simp [slotEdge, k1, k2, shift]
  · obtain ⟨a, a1, a2⟩ := hdec x (by omega) (by omega)
    obtain ⟨b, b1, b2⟩ := hdec y (by omega) (by omega)
    obtain ⟨i, hi, k1, k2⟩ := keyZ a b
    refine ⟨⟨x - a.toNat, y - b.toNat, z⟩, i, ?_, hi, ?_⟩
    · intro v hv
      simp only [cellVertices, shift, List.mem_cons, List.not_mem_nil, or_false] at hv
      rcases hv with rfl | rfl | rfl | rfl | rfl | rfl | rfl | rfl <;> dsimp only [InCube] <;> omega
    · simp [slotEdge, k1, k2, shift]

/-- Every vertex of a marching cubes mesh is used. -/
theorem mc_used {g : Grid ℝ} (hF : Filled g) (nrm : Vec3 ℝ → Vec3 ℝ) {r : PlacedMesh ℝ} (hr : marchingCubes nrm g = some r) {k : Nat}
    (hk : k < (edgeList g).length) : UsedVertex r k := by
  rw [mc_result hF] at hr
  cases hr
  unfold UsedVertex
  rw [triangles_flatTri]
  obtain ⟨e, he⟩ : ∃ e, e = (edgeList g)[k] := ⟨_, rfl⟩
  have hmem := (mem_edgeList hF).1 (he ▸ List.getElem_mem hk : e ∈ edgeList g)
  obtain ⟨hends, -⟩ := (hF.edge_iff e.axis e.lesser).1 ⟨e, hmem, rfl⟩
  obtain ⟨h0, h1⟩ := edgeVertices_iff.1 hends
  have hh : 1 ≤ g.maxCoord := by
    have h2 := hF.wf.two_le; have h3 := hF.wf.half_eq; show 1 ≤ g.half; omega
  obtain ⟨P, i, hP, hi, hs⟩ := slot_of_edge hh h0 h1
  have hv : vid g P i = some k := by
    unfold vid
    rw [hs, edgeIdx_eq_some hF]
    exact ⟨e, by rw [List.getElem?_eq_getElem hk, he], rfl⟩
  have hc : Spec.crosses (cellMask g P) i = true := by rw [← vid_isSome hF hP hi, hv]; rfl
  obtain ⟨t, ht, hor⟩ := C14_edges_used _ (cellMask_lt g P) i hi hc
  refine ⟨_, List.mem_flatMap.2 ⟨P, (mem_mcCells hF).2 ⟨hP, i, hi, by rw [hv]; rfl⟩, List.mem_map.2 ⟨t, ht, rfl⟩⟩, ?_⟩
  rcases hor with h | h | h
  · left; rw [h, hv]; rfl
  · right; left; rw [h, hv]; rfl
  · right; right; rw [h, hv]; rfl

theorem round_grid {s q o : ℝ} (hs : 0 < s) {m : Int} (h : |q - o| ≤ (m : ℝ) * s) :
    ∃ n : Int, -m ≤ n ∧ n ≤ m ∧ |(n : ℝ) * s + o - q| ≤ s / 2 := by
  refine ⟨round ((q - o) / s), ?_, ?_, ?_⟩
  · rw [abs_le] at h
    have : (-m : ℝ) ≤ (q - o) / s := by rw [le_div_iff₀ hs]; linarith [h.1]
    have h1 := abs_le.1 (abs_sub_round ((q - o) / s))
    have : (-m : ℝ) - 1 < round ((q - o) / s) := by linarith [h1.2]
    have : ((-m - 1 : Int) : ℝ) < round ((q - o) / s) := by push_cast; exact this
    have := Int.cast_lt.1 this
    omega
  · rw [abs_le] at h
    have : (q - o) / s ≤ m := by rw [div_le_iff₀ hs]; linarith [h.2]
    have h1 := abs_le.1 (abs_sub_round ((q - o) / s))
    have : (round ((q - o) / s) : ℝ) < ((m + 1 : Int) : ℝ) := by push_cast; linarith [h1.1]
    have := Int.cast_lt.1 this
    omega
  · have h1 := abs_sub_round ((q - o) / s)
    have : (round ((q - o) / s) : ℝ) * s + o - q = -(((q - o) / s - round ((q - o) / s)) * s) := by field_simp; ring
    rw [this, abs_neg, abs_mul, abs_of_pos hs]
    nlinarith

variable {g g' : Grid ℝ} {f : ScalarField ℝ} {sv : ZeroFinder ℝ}

/-- A grid point next to any point of the grid. -/
theorem grid_point_near (hstep : 0 < g.step) {m : Int} {q : Vec3 ℝ} (hq : InGridBox g m q) :
    ∃ p, InCube (g.maxCoord - m) p ∧ ∀ A : Axis, |(worldPos g.globalPos g.step p).get A - q.get A| ≤ g.step / 2 := by
  obtain ⟨x, x1, x2, x3⟩ := round_grid hstep (hq .X)
  obtain ⟨y, y1, y2, y3⟩ := round_grid hstep (hq .Y)
  obtain ⟨z, z1, z2, z3⟩ := round_grid hstep (hq .Z)
  refine ⟨⟨x, y, z⟩, ⟨⟨x1, x2⟩, ⟨y1, y2⟩, z1, z2⟩, fun A => ?_⟩
  rw [worldPos_get]
  cases A
  · exact x3
  · exact y3
  · exact z3

theorem dist2_near {a b : Vec3 ℝ} {s R : ℝ} (hR : 3 * s ^ 2 < 4 * R ^ 2) (h : ∀ A : Axis, |a.get A - b.get A| ≤ s / 2) : dist2 a b < R ^ 2 := by
  have sq : ∀ A : Axis, (a.get A - b.get A) ^ 2 ≤ (s / 2) ^ 2 := fun A => by rw [← sq_abs]; exact pow_le_pow_left₀ (abs_nonneg _) (h A) 2
  have hx := sq .X
  have hy := sq .Y
  have hz := sq .Z
  simp only [Vec3.get] at hx hy hz
  unfold dist2
  nlinarith

/-- An edge that crosses the surface between a solid and an empty ball. -/
theorem ball_crossing (hstep : 0 < g.step) {m : Int} {R : ℝ} (hR : 3 * g.step ^ 2 < 4 * R ^ 2) {a b : Vec3 ℝ} (ha : InGridBox g m a) (hb : InGridBox g m b)
    (hsol : SolidBall f a R) (hemp : EmptyBall f b R) :
    ∃ D p, Crosses f (worldPos g.globalPos g.step) D p ∧ InCube (g.maxCoord - m) p ∧ InCube (g.maxCoord - m) (edgeEnd D p) ∧
      NearBox a b (g.step / 2) (worldPos g.globalPos g.step p) ∧ NearBox a b (g.step / 2) (worldPos g.globalPos g.step (edgeEnd D p)) := by
  obtain ⟨P, hP, nP⟩ := grid_point_near hstep ha
  obtain ⟨Q, hQ, nQ⟩ := grid_point_near hstep hb
  have sP := hsol _ (dist2_near hR nP)
  have sQ := hemp _ (dist2_near hR nQ)
  obtain ⟨D, e, he, hbox⟩ := box_change (fun p => decide (f.value (worldPos g.globalPos g.step p) ≤ 0)) (p := P) (q := Q) (by simp [sP, sQ])
  have hcr : Crosses f (worldPos g.globalPos g.step) D e := by
    unfold Crosses
    simpa using he
  have hle : ∀ A, e.get A ≤ (edgeEnd D e).get A := by intro A; rw [edgeEnd_get]; split_ifs <;> omega
  have cube : ∀ v : IVec3, (∀ A : Axis, min (P.get A) (Q.get A) ≤ v.get A ∧ v.get A ≤ max (P.get A) (Q.get A)) → InCube (g.maxCoord - m) v := by
    intro v hv
    have hx := hv .X
    have hy := hv .Y
    have hz := hv .Z
    simp only [IVec3.get] at hx hy hz
    unfold InCube at *
    omega
  have near : ∀ v : IVec3, (∀ A : Axis, min (P.get A) (Q.get A) ≤ v.get A ∧ v.get A ≤ max (P.get A) (Q.get A)) →
      NearBox a b (g.step / 2) (worldPos g.globalPos g.step v) := by
    intro v hv A
    have h1 := abs_le.1 (nP A)
    have h2 := abs_le.1 (nQ A)
    obtain ⟨h3, h4⟩ := hv A
    simp only [worldPos_get] at *
    have k1 : ((min (P.get A) (Q.get A) : Int) : ℝ) ≤ v.get A := by exact_mod_cast h3
    have k2 : ((v.get A : Int) : ℝ) ≤ (max (P.get A) (Q.get A) : Int) := by exact_mod_cast h4
    have k1' := mul_le_mul_of_nonneg_right k1 hstep.le
    have k2' := mul_le_mul_of_nonneg_right k2 hstep.le
    have m1 := min_le_left (a.get A) (b.get A)
    have m2 := min_le_right (a.get A) (b.get A)
    have m3 := le_max_left (a.get A) (b.get A)
    have m4 := le_max_right (a.get A) (b.get A)
    constructor
    · rcases min_choice (P.get A) (Q.get A) with h | h <;> rw [h] at k1' <;> linarith
    · rcases max_choice (P.get A) (Q.get A) with h | h <;> rw [h] at k2' <;> linarith
  have c1 : ∀ A : Axis, min (P.get A) (Q.get A) ≤ e.get A ∧ e.get A ≤ max (P.get A) (Q.get A) := fun A =>
    ⟨(hbox A).1, (hle A).trans (hbox A).2⟩
  have c2 : ∀ A : Axis, min (P.get A) (Q.get A) ≤ (edgeEnd D e).get A ∧ (edgeEnd D e).get A ≤ max (P.get A) (Q.get A) := fun A =>
    ⟨(hbox A).1.trans (hle A), (hbox A).2⟩
  exact ⟨D, e, hcr, cube _ c1, cube _ c2, near _ c1, near _ c2⟩

/-- The used vertex of a marching cubes mesh on a crossing edge. -/
theorem mc_edge_vertex (hg : g.Reachable) (hstep : 0 < g.step) (hp : ProperField f) (hsv : StaysOnEdges f sv g.globalPos g.step)
    (h : g.fill f sv = some g') (nrm : Vec3 ℝ → Vec3 ℝ) {r : PlacedMesh ℝ} (hr : marchingCubes nrm g' = some r) {D : Axis} {p : IVec3}
    (hcr : Crosses f (worldPos g.globalPos g.step) D p) (h0 : InCube g.maxCoord p) (h1 : InCube g.maxCoord (edgeEnd D p)) :
    ∃ i v, UsedVertex r i ∧ r.mesh.vertices[i]? = some v ∧ OnGridEdge g.globalPos g.step D p (meshToWorld r v.position) := by
  have hF := C07_filled hg hp h
  obtain ⟨g'', hfill, ⟨-, -, hpos, hst⟩, -⟩ := C06_fill_materials hg f sv
  rw [h] at hfill; cases hfill
  obtain ⟨r', hr', r1, r2, hlen, hv, -, -⟩ := C15_valid hF nrm
  rw [hr] at hr'; cases hr'
  have hmem : edgeRecord f sv (worldPos g.globalPos g.step) g.step D p ∈ g'.edges D :=
    ((C07_fill_edges hg h D).1 _).2 ⟨p, edgeVertices_iff.2 ⟨h0, h1⟩, hcr, rfl⟩
  obtain ⟨e, he⟩ : ∃ e, e = edgeRecord f sv (worldPos g.globalPos g.step) g.step D p := ⟨_, rfl⟩
  rw [← he] at hmem
  have hax := hF.edge_axis D e hmem
  have hel : e ∈ edgeList g' := (mem_edgeList hF).2 (by rw [hax]; exact hmem)
  obtain ⟨k, hk, hke⟩ := List.getElem_of_mem hel
  have hke' : (edgeList g')[k]? = some e := by rw [List.getElem?_eq_getElem hk, hke]
  refine ⟨k, _, mc_used hF nrm hr hk, hv k e hke', ?_⟩
  have hpt := C15_vertex_position hg h hstep.ne' hmem
  have hles : e.lesser = p := by rw [he]; rfl
  have hmw : meshToWorld r e.surfacePoint = g'.localToGlobal e.surfacePoint := by
    unfold meshToWorld Grid.localToGlobal
    rw [r1, r2]
  show OnGridEdge g.globalPos g.step D p (meshToWorld r e.surfacePoint)
  rw [hmw, hpt, hles]
  obtain ⟨l1, l2⟩ := hsv D p hcr
  rw [edgeEnd_world, vec3_get_set, if_pos rfl] at l2
  refine ⟨(crossingCoord f sv (worldPos g.globalPos g.step) D p - (worldPos g.globalPos g.step p).get D) / g.step,
    div_nonneg (by linarith) hstep.le, by rw [div_le_one hstep]; linarith, ?_⟩
  rw [div_mul_cancel₀ _ hstep.ne']
  congr 1; ring

/-- C88 (marching cubes).  Between a solid ball and an empty ball, each just large enough to contain a grid point wherever it lies
(radius above `√3/2` steps), the marching cubes mesh has a vertex that belongs to a triangle, in the box spanned by the two centres enlarged by half a
step. -/
theorem C88_marching_cubes (hg : g.Reachable) (hstep : 0 < g.step) (hp : ProperField f) (hsv : StaysOnEdges f sv g.globalPos g.step)
    (h : g.fill f sv = some g') (nrm : Vec3 ℝ → Vec3 ℝ) {r : PlacedMesh ℝ} (hr : marchingCubes nrm g' = some r)
    {R : ℝ} (hR : 3 * g.step ^ 2 < 4 * R ^ 2) {a b : Vec3 ℝ} (ha : InGridBox g 0 a) (hb : InGridBox g 0 b)
    (hsol : SolidBall f a R) (hemp : EmptyBall f b R) :
    ∃ i v, UsedVertex r i ∧ r.mesh.vertices[i]? = some v ∧ NearBox a b (g.step / 2) (meshToWorld r v.position) := by
  obtain ⟨D, p, hcr, h0, h1, n0, n1⟩ := ball_crossing hstep hR ha hb hsol hemp
  rw [sub_zero] at h0 h1
  obtain ⟨i, v, hu, hv, s, s0, s1, hs⟩ := mc_edge_vertex hg hstep hp hsv h nrm hr hcr h0 h1
  refine ⟨i, v, hu, hv, fun A => ?_⟩
  obtain ⟨m1, m2⟩ := n0 A
  obtain ⟨m3, m4⟩ := n1 A
  rw [edgeEnd_world, vec3_get_set] at m3 m4
  rw [hs, vec3_get_set]
  by_cases hA : A = D
  · subst hA
    simp only [if_true] at *
    constructor <;> nlinarith
  · simp only [if_neg hA]; exact ⟨m1, m2⟩

/-- C88 (surface points).  If a solid and an empty ball of radius `R` (above `√3/2` steps) touch the point `z` - so for every point of a surface
with curvature radius at least `R` on both sides - the marching cubes mesh has a used vertex within `√3 (R + step / 2)` of `z`. -/
theorem C88_surface_point (hg : g.Reachable) (hstep : 0 < g.step) (hp : ProperField f) (hsv : StaysOnEdges f sv g.globalPos g.step)
    (h : g.fill f sv = some g') (nrm : Vec3 ℝ → Vec3 ℝ) {r : PlacedMesh ℝ} (hr : marchingCubes nrm g' = some r)
    {R : ℝ} (hR0 : 0 ≤ R) (hR : 3 * g.step ^ 2 < 4 * R ^ 2) {a b z : Vec3 ℝ} (ha : InGridBox g 0 a) (hb : InGridBox g 0 b)
    (hsol : SolidBall f a R) (hemp : EmptyBall f b R) (hza : dist2 z a ≤ R ^ 2) (hzb : dist2 b z ≤ R ^ 2) :
    ∃ i v, UsedVertex r i ∧ r.mesh.vertices[i]? = some v ∧ dist2 (meshToWorld r v.position) z ≤ 3 * (R + g.step / 2) ^ 2 := by
  obtain ⟨i, v, hu, hv, hn⟩ := C88_marching_cubes hg hstep hp hsv h nrm hr hR ha hb hsol hemp
  refine ⟨i, v, hu, hv, ?_⟩
  have near : ∀ {u w : Vec3 ℝ}, dist2 u w ≤ R ^ 2 → ∀ A : Axis, |u.get A - w.get A| ≤ R := by
    intro u w hd A
    apply abs_le_of_sq_le_sq _ hR0
    unfold dist2 at hd
    cases A <;> simp only [Vec3.get] <;> nlinarith [sq_nonneg (u.x - w.x), sq_nonneg (u.y - w.y), sq_nonneg (u.z - w.z)]
  have key : ∀ A : Axis, |(meshToWorld r v.position).get A - z.get A| ≤ R + g.step / 2 := by
    intro A
    have h1 := abs_le.1 (near hza A)
    have h2 := abs_le.1 (near hzb A)
    obtain ⟨h3, h4⟩ := hn A
    rw [abs_le]
    constructor
    · rcases min_choice (a.get A) (b.get A) with e | e <;> rw [e] at h3 <;> linarith
    · rcases max_choice (a.get A) (b.get A) with e | e <;> rw [e] at h4 <;> linarith
  have sq : ∀ A : Axis, ((meshToWorld r v.position).get A - z.get A) ^ 2 ≤ (R + g.step / 2) ^ 2 := fun A => by
    rw [← sq_abs]; exact pow_le_pow_left₀ (abs_nonneg _) (key A) 2
  have hx := sq .X
  have hy := sq .Y
  have hz := sq .Z
  simp only [Vec3.get] at hx hy hz
  unfold dist2
  linarith

/-- C88 (walks).  Whoever walks along grid edges from a solid to an empty grid point meets the marching cubes mesh: one of the edges used contains
a vertex of the mesh that belongs to a triangle. -/
theorem C88_walk (hg : g.Reachable) (hstep : 0 < g.step) (hp : ProperField f) (hsv : StaysOnEdges f sv g.globalPos g.step)
    (h : g.fill f sv = some g') (nrm : Vec3 ℝ → Vec3 ℝ) {r : PlacedMesh ℝ} (hr : marchingCubes nrm g' = some r)
    {path : List IVec3} (hw : Walk path) (hin : ∀ p ∈ path, InCube g.maxCoord p) {p q : IVec3} (hfirst : path.head? = some p)
    (hlast : path.getLast? = some q) (hsol : f.value (worldPos g.globalPos g.step p) ≤ 0) (hemp : 0 < f.value (worldPos g.globalPos g.step q)) :
    ∃ D e u w i v, EdgeEnds D e u w ∧ [u, w] <:+: path ∧ UsedVertex r i ∧ r.mesh.vertices[i]? = some v ∧
      OnGridEdge g.globalPos g.step D e (meshToWorld r v.position) := by
  suffices hx : ∃ D e u w, EdgeEnds D e u w ∧ [u, w] <:+: path ∧ Crosses f (worldPos g.globalPos g.step) D e by
    obtain ⟨D, e, u, w, he, hsub, hcr⟩ := hx
    have hu := hin u (hsub.subset List.mem_cons_self)
    have hw := hin w (hsub.subset (by simp))
    obtain ⟨i, v, k1, k2, k3⟩ := mc_edge_vertex hg hstep hp hsv h nrm hr hcr (by rcases he with ⟨h1, h2⟩ | ⟨h1, h2⟩ <;> rw [← h1] <;> assumption)
      (by rcases he with ⟨h1, h2⟩ | ⟨h1, h2⟩ <;> rw [← h2] <;> assumption)
    exact ⟨D, e, u, w, i, v, he, hsub, k1, k2, k3⟩
  clear hin
  induction path generalizing p with
  | nil => cases hfirst
  | cons a l ih =>
    cases hfirst
    cases l with
    | nil =>
      simp only [List.getLast?_singleton, Option.some.injEq] at hlast
      subst hlast
      linarith
    | cons b l =>
      unfold Walk at hw
      rw [List.isChain_cons_cons] at hw
      obtain ⟨⟨D, e, he⟩, hw⟩ := hw
      by_cases hb : f.value (worldPos g.globalPos g.step b) ≤ 0
      · obtain ⟨D, e, u, w, h1, h2, h3⟩ := ih hw rfl (by rw [List.getLast?_cons_cons] at hlast; exact hlast) hb
        exact ⟨D, e, u, w, h1, h2.trans (List.suffix_cons _ _).isInfix, h3⟩
      · refine ⟨D, e, a, b, he, ⟨[], l, rfl⟩, ?_⟩
        unfold Crosses
        rcases he with ⟨h1, h2⟩ | ⟨h1, h2⟩ <;> rw [← h2, ← h1] <;> simp [hsol, hb]

/-- C88 (uniform dual contouring).  The same for dual contouring, at least one step away from the border of the grid and whatever the zero finder and
the options of the QEF solver: it has a whole triangle in the box spanned by the two centres enlarged by one and a half steps. -/
theorem C88_dual_contouring (hg : g.Reachable) (hstep : 0 < g.step) (hp : ProperField f) (h : g.fill f sv = some g')
    {env : DcEnv ℝ} (hsort : IsSort env.srt) {solver q : Qef ℝ 3} (hpinv : 0 < solver.pinvTolerance) {r : PlacedMesh ℝ}
    (hr : dualContouring env g' solver = some (q, r))
    {R : ℝ} (hR : 3 * g.step ^ 2 < 4 * R ^ 2) {a b : Vec3 ℝ} (ha : InGridBox g 1 a) (hb : InGridBox g 1 b)
    (hsol : SolidBall f a R) (hemp : EmptyBall f b R) :
    ∃ t ∈ triangles r.mesh.indices, ∀ i, (i = t.1 ∨ i = t.2.1 ∨ i = t.2.2) →
      ∃ v, r.mesh.vertices[i]? = some v ∧ NearBox a b (3 / 2 * g.step) (meshToWorld r v.position) := by
  obtain ⟨D, p, hcr, h0, h1, n0, n1⟩ := ball_crossing hstep hR ha hb hsol hemp
  have hF := C07_filled hg hp h
  obtain ⟨g'', hfill, ⟨-, hhalf, hpos, hst⟩, -⟩ := C06_fill_materials hg f sv
  rw [h] at hfill; cases hfill
  obtain ⟨⟨cells, hcells⟩, q', r', hr', r1, r2, -, hv⟩ := C18_vertices (env := env) hF hsort hpinv
  rw [hr] at hr'; cases hr'
  obtain ⟨-, htri, hin, -⟩ := C19_quads hF hsort hpinv hr hcells
  obtain ⟨hvl, hv⟩ := hv cells hcells
  have hmax : g'.maxCoord = g.maxCoord := hhalf
  have big : ∀ p, InCube (g.maxCoord - 1) p → InCube g.maxCoord p := by intro p; unfold InCube; omega
  have hmem : edgeRecord f sv (worldPos g.globalPos g.step) g.step D p ∈ g'.edges D :=
    ((C07_fill_edges hg h D).1 _).2 ⟨p, edgeVertices_iff.2 ⟨big _ h0, big _ h1⟩, hcr, rfl⟩
  obtain ⟨e, he⟩ : ∃ e, e = edgeRecord f sv (worldPos g.globalPos g.step) g.step D p := ⟨_, rfl⟩
  rw [← he] at hmem
  have hax := hF.edge_axis D e hmem
  have hles : e.lesser = p := by rw [he]; rfl
  have hel : e ∈ edgeList g' := (mem_edgeList hF).2 (by rw [hax]; exact hmem)
  have hint : InteriorEdge g'.maxCoord e.axis e.lesser := by
    intro c hc v hvc
    rw [hax, hles] at hc
    rw [hmax]
    obtain ⟨x, y, z⟩ := p
    obtain ⟨vx, vy, vz⟩ := v
    unfold InCube edgeEnd shift at *
    cases D <;> simp only [cellsAroundEdge, cellVertices, shift, List.mem_cons, List.not_mem_nil, or_false] at hc <;>
      simp only at h0 h1 <;> rcases hc with rfl | rfl | rfl | rfl <;>
      simp only [cellVertices, shift, List.mem_cons, List.not_mem_nil, or_false, IVec3.mk.injEq] at hvc <;> simp only <;> omega
  have hcm := hin e hel hint
  have hvert : ∀ c ∈ cellsAroundEdge e.axis e.lesser, ∃ a', r.mesh.vertices[cells.idxOf c]? = some a' ∧
      NearBox a b (3 / 2 * g.step) (meshToWorld r a'.position) := by
    intro c hc
    have hlt := List.idxOf_lt_length_of_mem (hcm c hc)
    obtain ⟨v, hv1, hv2⟩ := hv (cells.idxOf c) c (by rw [List.getElem?_eq_getElem hlt, List.getElem_idxOf])
    refine ⟨v, hv1, fun A => ?_⟩
    have hcell : ((c.get A : Int) : ℝ) ≤ v.position.get A ∧ v.position.get A ≤ (c.get A : Int) + 1 := by
      cases A
      exacts [hv2.inside_x, hv2.inside_y, hv2.inside_z]
    have hpc := edge_of_around hc p (by rw [hax, hles]; cases D <;> simp [edgeVertices])
    have hg1 := cellVertices_get hpc A
    have k1 : (c.get A : ℝ) ≤ p.get A := by exact_mod_cast hg1.1
    have k2 : (p.get A : ℝ) ≤ c.get A + 1 := by exact_mod_cast hg1.2
    obtain ⟨m1, m2⟩ := n0 A
    rw [worldPos_get] at m1 m2
    rw [meshToWorld_get, r1, r2, hpos, hst]
    constructor <;> nlinarith
  obtain ⟨c0, c1, c2, c3, hcs, -⟩ := (C04_around_edge_geometry e.axis e.lesser).2.2
  have v0 := hvert c0 (by rw [hcs]; simp)
  have v1 := hvert c1 (by rw [hcs]; simp)
  have v3 := hvert c3 (by rw [hcs]; simp)
  have hall : (cellsAroundEdge e.axis e.lesser).all (fun c => decide (∀ v ∈ cellVertices c, InCube g'.maxCoord v)) = true := by
    rw [List.all_eq_true]
    intro c hc
    exact decide_eq_true (hint c hc)
  have hq : edgeQuad g'.maxCoord cells e = quadTriangles (cells.idxOf c0) (cells.idxOf c1) (cells.idxOf c2) (cells.idxOf c3) e.lesserSolid := by
    unfold edgeQuad
    rw [if_pos hall, hcs]
    rfl
  rw [htri]
  cases hs : e.lesserSolid with
  | true =>
    refine ⟨(cells.idxOf c0, cells.idxOf c1, cells.idxOf c3), List.mem_flatMap.2 ⟨e, hel, by rw [hq, hs]; simp [quadTriangles]⟩, ?_⟩
    rintro i (rfl | rfl | rfl) <;> assumption
  | false =>
    refine ⟨(cells.idxOf c0, cells.idxOf c3, cells.idxOf c1), List.mem_flatMap.2 ⟨e, hel, by rw [hq, hs]; simp [quadTriangles]⟩, ?_⟩
    rintro i (rfl | rfl | rfl) <;> assumption

/-- Non-vacuity: the half-space `z ≤ 1/2`, a solid and an empty ball touching its surface from both sides. -/
example (nrm : Vec3 ℝ → Vec3 ℝ) : ∃ (g g' : Grid ℝ) (r : PlacedMesh ℝ) (i : Nat) (v : MeshVertex ℝ), g.Reachable ∧
    g.fill halfField (bisectionFinder 8) = some g' ∧ marchingCubes nrm g' = some r ∧
    SolidBall halfField ⟨0, 0, -2 / 5⟩ (9 / 10) ∧ EmptyBall halfField ⟨0, 0, 7 / 5⟩ (9 / 10) ∧
    UsedVertex r i ∧ r.mesh.vertices[i]? = some v ∧ dist2 (meshToWorld r v.position) ⟨0, 0, 1 / 2⟩ ≤ 3 * (9 / 10 + 1 / 2) ^ 2 := by
  obtain ⟨g, hgm⟩ : ∃ g : Grid ℝ, Grid.mk' 4 ⟨0, 0, 0⟩ 1 = .ok g := ⟨_, rfl⟩
  have hg : g.Reachable := .mk hgm
  have e1 : g.globalPos = ⟨0, 0, 0⟩ := by cases hgm; rfl
  have e2 : g.step = 1 := by cases hgm; rfl
  have e3 : g.maxCoord = 2 := by cases hgm; rfl
  have hp : ProperField halfField := fun _ _ => by show Material.Stone ≠ Material.Empty; decide
  obtain ⟨g', hf, -⟩ := C06_fill_materials hg halfField (bisectionFinder 8)
  obtain ⟨r, hr, -⟩ := C15_valid (C07_filled hg hp hf) nrm
  have hsol : SolidBall halfField ⟨0, 0, -2 / 5⟩ (9 / 10) := by
    intro x hx
    unfold dist2 at hx
    simp only [halfField]
    nlinarith [sq_nonneg x.x, sq_nonneg x.y]
  have hemp : EmptyBall halfField ⟨0, 0, 7 / 5⟩ (9 / 10) := by
    intro x hx
    unfold dist2 at hx
    simp only [halfField]
    nlinarith [sq_nonneg x.x, sq_nonneg x.y]
  have box : ∀ c : ℝ, |c| ≤ 2 → InGridBox g 0 ⟨0, 0, c⟩ := by
    intro c hc A
    rw [e1, e2, e3]
    cases A <;> simp [Vec3.get, hc]
  have hst := (C69_solvers halfField 0 8 g.globalPos (step := g.step) (by rw [e2]; norm_num)).1
  obtain ⟨i, v, h1, h2, h3⟩ := C88_surface_point (z := ⟨0, 0, 1 / 2⟩) hg (by rw [e2]; norm_num) hp hst hf nrm hr (R := 9 / 10) (by norm_num)
    (by rw [e2]; norm_num) (box (-2 / 5) (by rw [abs_le]; norm_num)) (box (7 / 5) (by rw [abs_le]; norm_num)) hsol hemp
    (by simp only [dist2]; norm_num) (by simp only [dist2]; norm_num)
  rw [e2] at h3
  exact ⟨g, g', r, i, v, hg, hf, hr, hsol, hemp, h1, h2, h3⟩

end Isomesh
