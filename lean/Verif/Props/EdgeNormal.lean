import Verif.Model.EdgeNormal
import Verif.Props.MarchingCubes

/-! C40: normals reconstructed from edge records. -/

namespace Isomesh
open Spec

theorem length_nonneg (v : Vec3 ℝ) : 0 ≤ v.length := Real.sqrt_nonneg _

theorem length_sq (v : Vec3 ℝ) : v.length ^ 2 = v.x ^ 2 + v.y ^ 2 + v.z ^ 2 := by
  unfold Vec3.length
  rw [elem_sqrt, Real.sq_sqrt (by nlinarith [sq_nonneg v.x, sq_nonneg v.y, sq_nonneg v.z])]
  ring

section
variable {eps : ℝ} (he : 0 < eps) (v : Vec3 ℝ)
include he

theorem packed_le : (packNormal eps v).nx ^ 2 + (packNormal eps v).nz ^ 2 ≤ 1 := by
  have h0 := length_nonneg v
  have h1 := length_sq v
  have hp : 0 < (v.length + eps) ^ 2 := by positivity
  simp only [packNormal, div_pow]
  rw [← add_div, div_le_one hp]
  nlinarith [sq_nonneg v.y]

theorem ny_sq : (edgeNormal eps v).y ^ 2 = 1 - (packNormal eps v).nx ^ 2 - (packNormal eps v).nz ^ 2 := by
  have h := packed_le he v
  have h2 : max 0 (1 - (packNormal eps v).nx * (packNormal eps v).nx - (packNormal eps v).nz * (packNormal eps v).nz) =
      1 - (packNormal eps v).nx ^ 2 - (packNormal eps v).nz ^ 2 := by
    rw [max_eq_right] <;> nlinarith
  unfold edgeNormal PackedNormal.surfaceNormal
  simp only [h2]
  split
  · rw [neg_sq, elem_sqrt, Real.sq_sqrt (by linarith)]
  · rw [elem_sqrt, Real.sq_sqrt (by linarith)]

/-- C40: for every gradient, zero or not, the reconstructed normal has length one. -/
theorem C40_unit : (edgeNormal eps v).x ^ 2 + (edgeNormal eps v).y ^ 2 + (edgeNormal eps v).z ^ 2 = 1 := by
  rw [ny_sq he]
  unfold edgeNormal PackedNormal.surfaceNormal
  simp only
  ring

theorem uy_sq_le (hv : 0 < v.length) : (v.y / v.length) ^ 2 ≤ (edgeNormal eps v).y ^ 2 := by
  rw [ny_sq he]
  have h1 := length_sq v
  have hp : 0 < v.length + eps := by linarith
  have hxz : (packNormal eps v).nx ^ 2 + (packNormal eps v).nz ^ 2 ≤ (v.x / v.length) ^ 2 + (v.z / v.length) ^ 2 := by
    simp only [packNormal, div_pow, ← add_div]
    apply div_le_div_of_nonneg_left (by positivity) (by positivity)
    apply pow_le_pow_left₀ hv.le; linarith
  have hs : (v.x / v.length) ^ 2 + (v.y / v.length) ^ 2 + (v.z / v.length) ^ 2 = 1 := by
    simp only [div_pow, ← add_div]
    rw [← h1]; exact div_self (by positivity)
  linarith

/-- C40: the Y component has the sign of the gradient's Y component. -/
theorem C40_sign : (0 ≤ v.y → 0 ≤ (edgeNormal eps v).y) ∧ (v.y < 0 → (edgeNormal eps v).y < 0) ∧
    (0 < v.y → 0 < (edgeNormal eps v).y) := by
  have hnn : 0 ≤ v.y → 0 ≤ (edgeNormal eps v).y := by
    intro h
    unfold edgeNormal PackedNormal.surfaceNormal
    simp only [packNormal, not_lt.2 h, decide_false, Bool.false_eq_true, if_false]
    exact Real.sqrt_nonneg _
  have hnp : v.y < 0 → (edgeNormal eps v).y ≤ 0 := by
    intro h
    unfold edgeNormal PackedNormal.surfaceNormal
    simp only [packNormal, h, decide_true, if_true]
    simp
  have hne : v.y ≠ 0 → (edgeNormal eps v).y ≠ 0 := by
    intro h h0
    have hl : 0 < v.length := by
      unfold Vec3.length
      apply Real.sqrt_pos.2
      have := mul_self_pos.2 h
      nlinarith [mul_self_nonneg v.x, mul_self_nonneg v.z]
    have := uy_sq_le he v hl
    rw [h0] at this
    have h1 : 0 < (v.y / v.length) ^ 2 := by positivity
    linarith [this.trans_eq (zero_pow two_ne_zero)]
  exact ⟨hnn, fun h => lt_of_le_of_ne (hnp h) (hne h.ne), fun h => lt_of_le_of_ne (hnn h.le) (hne h.ne').symm⟩

/-- C40: distance to the exactly normalised gradient, component by component; it vanishes as `eps / |gradient|` does. -/
theorem C40_close (hv : 0 < v.length) :
    |(edgeNormal eps v).x - v.x / v.length| ≤ eps / (v.length + eps) ∧
    |(edgeNormal eps v).z - v.z / v.length| ≤ eps / (v.length + eps) ∧
    ((edgeNormal eps v).y - v.y / v.length) ^ 2 ≤ 2 * (eps / (v.length + eps)) := by
  have h1 := length_sq v
  have hp : 0 < v.length + eps := by linarith
  have comp : ∀ c : ℝ, |c| ≤ v.length → |c / (v.length + eps) - c / v.length| ≤ eps / (v.length + eps) := by
    intro c hc
    have : c / (v.length + eps) - c / v.length = -(c / v.length * (eps / (v.length + eps))) := by
      field_simp; ring
    rw [this, abs_neg, abs_mul, abs_of_pos (show 0 < eps / (v.length + eps) by positivity), abs_div, abs_of_pos hv]
    have h2 : |c| / v.length ≤ 1 := (div_le_one hv).2 hc
    have h3 : 0 < eps / (v.length + eps) := by positivity
    nlinarith
  have hx : |v.x| ≤ v.length := abs_le_of_sq_le_sq (by nlinarith [sq_nonneg v.y, sq_nonneg v.z]) hv.le
  have hz : |v.z| ≤ v.length := abs_le_of_sq_le_sq (by nlinarith [sq_nonneg v.y, sq_nonneg v.x]) hv.le
  refine ⟨comp _ hx, comp _ hz, ?_⟩
  -- squares
  set t := eps / (v.length + eps) with ht
  have ht0 : 0 < t := by positivity
  have ht1 : v.length / (v.length + eps) = 1 - t := by rw [ht]; field_simp; ring
  have hs : (v.x / v.length) ^ 2 + (v.y / v.length) ^ 2 + (v.z / v.length) ^ 2 = 1 := by
    simp only [div_pow, ← add_div]
    rw [← h1]; exact div_self (by positivity)
  have hnx : (packNormal eps v).nx = v.x / v.length * (1 - t) := by
    rw [← ht1]; simp only [packNormal]; field_simp
  have hnz : (packNormal eps v).nz = v.z / v.length * (1 - t) := by
    rw [← ht1]; simp only [packNormal]; field_simp
  have hdiff : (edgeNormal eps v).y ^ 2 - (v.y / v.length) ^ 2 ≤ 2 * t := by
    rw [ny_sq he, hnx, hnz]
    have hx2 := sq_nonneg (v.x / v.length)
    have hy2 := sq_nonneg (v.y / v.length)
    have hz2 := sq_nonneg (v.z / v.length)
    nlinarith [sq_nonneg t, mul_nonneg ht0.le hy2, mul_nonneg (sq_nonneg t) hx2, mul_nonneg (sq_nonneg t) hz2]
  have hsame : 0 ≤ (edgeNormal eps v).y * (v.y / v.length) := by
    obtain ⟨s1, s2, -⟩ := C40_sign he v
    rcases le_or_gt 0 v.y with h | h
    · exact mul_nonneg (s1 h) (div_nonneg h hv.le)
    · exact mul_nonneg_of_nonpos_of_nonpos (s2 h).le (div_nonpos_of_nonpos_of_nonneg h.le hv.le)
  have hle := uy_sq_le he v hv
  have habs : (v.y / v.length) ^ 2 ≤ (edgeNormal eps v).y * (v.y / v.length) := by
    have h5 : |v.y / v.length| ≤ |(edgeNormal eps v).y| := sq_le_sq.1 hle
    have h6 : (edgeNormal eps v).y * (v.y / v.length) = |(edgeNormal eps v).y| * |v.y / v.length| := by
      rw [← abs_mul, abs_of_nonneg hsame]
    rw [h6, ← sq_abs, pow_two]
    exact mul_le_mul_of_nonneg_right h5 (abs_nonneg _)
  nlinarith

end

/-- C40: a zero gradient is replaced by the unit vector along Y. -/
theorem C40_zero_gradient (eps : ℝ) : edgeNormal eps ⟨0, 0, 0⟩ = ⟨0, 1, 0⟩ := by
  simp [edgeNormal, packNormal, PackedNormal.surfaceNormal]

/-- C40: `surfacePoint` of a record with offset in [0, 1] is on the edge: it equals the lesser endpoint moved by the
offset along the axis. -/
theorem C40_point (e : GridEdge ℝ) (h0 : 0 ≤ e.offset) (h1 : e.offset ≤ 1) :
    (e.lesser.get e.axis : ℝ) ≤ e.surfacePoint.get e.axis ∧
    e.surfacePoint.get e.axis ≤ (((edgeEnd e.axis e.lesser).get e.axis : Int) : ℝ) ∧
    e.surfacePoint.get e.axis = (e.lesser.get e.axis : ℝ) + e.offset ∧
    (∀ a, a ≠ e.axis → e.surfacePoint.get a = ((e.lesser.get a : Int) : ℝ)) := by
  obtain ⟨a, b, c⟩ := C15_point_on_edge e h0 h1
  refine ⟨a, b, ?_, c⟩
  obtain ⟨p, gr, o, ax, s, m⟩ := e
  cases ax <;> simp [GridEdge.surfacePoint, Vec3.get, IVec3.get]

/-- Non-trivial instance: gradient (3, -4, 0) of length 5 with `eps = 1`: the normal is (1/2, -√(3/4), 0). -/
example : edgeNormal (1 : ℝ) ⟨3, -4, 0⟩ = ⟨1 / 2, -Real.sqrt (3 / 4), 0⟩ := by
  have h : Vec3.length (⟨3, -4, 0⟩ : Vec3 ℝ) = 5 := by
    unfold Vec3.length
    rw [elem_sqrt, show (3 : ℝ) * 3 + -4 * -4 + 0 * 0 = 5 ^ 2 by norm_num]
    exact Real.sqrt_sq (by norm_num)
  simp only [edgeNormal, packNormal, PackedNormal.surfaceNormal, h]
  norm_num

end Isomesh
