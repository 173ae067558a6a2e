import Verif.Proofs.CornerQef

/-! The point found with an approximate eigen decomposition and truncated eigenvalues is nearly optimal. -/

namespace Isomesh

open Spec Finset Matrix

section
variable {n : Nat}

/-- Part of a matrix outside of the diagonal, applied to a vector. -/
def offMul (D : Matrix (Fin n) (Fin n) ℝ) (y : Fin n → ℝ) (i : Fin n) : ℝ := ∑ j, (if i = j then 0 else D i j) * y j

theorem mulVec_split (D : Matrix (Fin n) (Fin n) ℝ) (y : Fin n → ℝ) (i : Fin n) : (D *ᵥ y) i = D i i * y i + offMul D y i := by
  unfold offMul
  rw [Matrix.mulVec, dotProduct]
  have : ∀ j, D i j * y j = (if i = j then D i i * y i else 0) + (if i = j then 0 else D i j) * y j := by
    intro j
    by_cases hij : i = j
    · subst hij; simp
    · simp [hij]
  rw [Finset.sum_congr rfl fun j _ => this j, Finset.sum_add_distrib, Finset.sum_ite_eq, if_pos (Finset.mem_univ i)]

theorem offMul_sq (D : Matrix (Fin n) (Fin n) ℝ) (y : Fin n → ℝ) : ∑ i, offMul D y i ^ 2 ≤ offSq D * ∑ j, y j ^ 2 := by
  unfold offSq
  rw [Finset.sum_mul]
  apply Finset.sum_le_sum
  intro i _
  have hc := cauchy_row (fun j => if i = j then 0 else D i j) y
  refine hc.trans (le_of_eq ?_)
  congr 1
  apply Finset.sum_congr rfl
  intro j _
  split <;> simp

theorem offSq_nonneg (D : Matrix (Fin n) (Fin n) ℝ) : 0 ≤ offSq D := by
  unfold offSq
  refine Finset.sum_nonneg fun i _ => Finset.sum_nonneg fun j _ => ?_
  split
  · exact le_refl _
  · exact sq_nonneg _

theorem off_form (D : Matrix (Fin n) (Fin n) ℝ) (z : Fin n → ℝ) : ∑ i, z i * offMul D z i ≤ Real.sqrt (offSq D) * ∑ i, z i ^ 2 := by
  have h1 := cauchy_row z (fun i => offMul D z i)
  have h2 := offMul_sq D z
  have hz : 0 ≤ ∑ i, z i ^ 2 := Finset.sum_nonneg fun i _ => sq_nonneg _
  refine le_of_sq_le_sq ?_ (mul_nonneg (Real.sqrt_nonneg _) hz) |> fun h => h
  rw [mul_pow, Real.sq_sqrt (offSq_nonneg D)]
  calc (∑ i, z i * offMul D z i) ^ 2 ≤ (∑ i, z i ^ 2) * ∑ i, offMul D z i ^ 2 := h1
    _ ≤ (∑ i, z i ^ 2) * (offSq D * ∑ j, z j ^ 2) := mul_le_mul_of_nonneg_left h2 hz
    _ = _ := by ring

theorem dot_sq (y : Fin n → ℝ) : y ⬝ᵥ y = ∑ i, y i ^ 2 := Finset.sum_congr rfl fun i _ => by ring

/-- Excess of the quadratic form at the point found. -/
theorem approx_gap {S E D : Matrix (Fin n) (Fin n) ℝ} (hE : E.transpose * E = 1) (hE' : E * E.transpose = 1) (hS : S = E * D * E.transpose)
    (hpsd : ∀ u : Fin n → ℝ, 0 ≤ u ⬝ᵥ (S *ᵥ u)) {π : ℝ} (hπ : 0 < π) {σ : Fin n → ℝ} (hσ : ∀ i, σ i = if |D i i| ≥ π then 1 / D i i else 0)
    (x p : Fin n → ℝ) :
    let v := (E * Matrix.diagonal σ * E.transpose) *ᵥ (S *ᵥ x - S *ᵥ p) + p
    (v - x) ⬝ᵥ (S *ᵥ (v - x)) ≤ (offSq D / π + π + Real.sqrt (offSq D) * (offSq D / π ^ 2 + 1)) * ((p - x) ⬝ᵥ (p - x)) := by
  have hD : D = E.transpose * S * E := by
    rw [hS]
    calc D = (E.transpose * E) * D * (E.transpose * E) := by rw [hE, Matrix.one_mul, Matrix.mul_one]
      _ = _ := by simp only [Matrix.mul_assoc]
  have hform : ∀ z : Fin n → ℝ, (E *ᵥ z) ⬝ᵥ (S *ᵥ (E *ᵥ z)) = z ⬝ᵥ (D *ᵥ z) := by
    intro z
    rw [dot_mulVec_left, Matrix.mulVec_mulVec, Matrix.mulVec_mulVec, ← hD]
  have hdiag : ∀ i, 0 ≤ D i i := by
    intro i
    have := hpsd (E *ᵥ Pi.single i 1)
    rw [hform] at this
    simpa using this
  intro v
  set y := E.transpose *ᵥ (x - p) with hy
  have hxp : x - p = E *ᵥ y := by rw [hy, Matrix.mulVec_mulVec, hE', Matrix.one_mulVec]
  have hyy : (p - x) ⬝ᵥ (p - x) = ∑ i, y i ^ 2 := by
    have : p - x = -(x - p) := by abel
    rw [this, neg_dotProduct_neg, hxp, orth_norm hE, dot_sq]
  set z : Fin n → ℝ := fun i => if |D i i| ≥ π then offMul D y i / D i i else - y i with hz
  have hv : v - x = E *ᵥ z := by
    have e1 : v - x = (E * Matrix.diagonal σ * E.transpose) *ᵥ (S *ᵥ (x - p)) - (x - p) := by
      rw [Matrix.mulVec_sub]
      show (E * Matrix.diagonal σ * E.transpose) *ᵥ (S *ᵥ x - S *ᵥ p) + p - x = _
      abel
    have e2 : (E * Matrix.diagonal σ * E.transpose) *ᵥ (S *ᵥ (x - p)) = E *ᵥ (Matrix.diagonal σ *ᵥ (D *ᵥ y)) := by
      rw [hxp, hS]
      simp only [Matrix.mulVec_mulVec]
      congr 1
      calc E * Matrix.diagonal σ * E.transpose * (E * D * E.transpose * E)
          = E * Matrix.diagonal σ * (E.transpose * E) * D * (E.transpose * E) := by simp only [Matrix.mul_assoc]
        _ = _ := by rw [hE]; simp only [Matrix.mul_one, Matrix.mul_assoc]
    rw [e1, e2, hxp, ← Matrix.mulVec_sub]
    congr 1
    funext i
    rw [Pi.sub_apply, Matrix.mulVec_diagonal, mulVec_split, hz, hσ]
    dsimp only
    split
    · rename_i h
      have h0 : D i i ≠ 0 := by
        intro e
        rw [e, abs_zero] at h
        linarith
      field_simp
      ring
    · ring
  rw [hv, hform, hyy]
  have hsplit : z ⬝ᵥ (D *ᵥ z) = ∑ i, D i i * z i ^ 2 + ∑ i, z i * offMul D z i := by
    unfold dotProduct
    rw [← Finset.sum_add_distrib]
    exact Finset.sum_congr rfl fun i _ => by rw [mulVec_split]; ring
  have hoy := offMul_sq D y
  have hy0 : 0 ≤ ∑ i, y i ^ 2 := Finset.sum_nonneg fun i _ => sq_nonneg _
  have hd : ∑ i, D i i * z i ^ 2 ≤ (offSq D / π + π) * ∑ i, y i ^ 2 := by
    have : ∀ i ∈ univ, D i i * z i ^ 2 ≤ 1 / π * offMul D y i ^ 2 + π * y i ^ 2 := by
      intro i _
      have q1 : 0 ≤ 1 / π * offMul D y i ^ 2 := by positivity
      have q2 : 0 ≤ π * y i ^ 2 := by positivity
      rw [hz]
      dsimp only
      split
      · rename_i h
        rw [abs_of_nonneg (hdiag i)] at h
        have hp : 0 < D i i := lt_of_lt_of_le hπ h
        have e : D i i * (offMul D y i / D i i) ^ 2 = 1 / D i i * offMul D y i ^ 2 := by field_simp
        rw [e]
        have := mul_le_mul_of_nonneg_right (one_div_le_one_div_of_le hπ h) (sq_nonneg (offMul D y i))
        linarith
      · rename_i h
        rw [abs_of_nonneg (hdiag i)] at h
        have := mul_le_mul_of_nonneg_right (not_le.1 h).le (sq_nonneg (y i))
        rw [neg_sq]
        linarith
    refine (Finset.sum_le_sum this).trans ?_
    rw [Finset.sum_add_distrib, ← Finset.mul_sum, ← Finset.mul_sum]
    have := mul_le_mul_of_nonneg_left hoy (one_div_pos.2 hπ).le
    calc 1 / π * ∑ i, offMul D y i ^ 2 + π * ∑ i, y i ^ 2 ≤ 1 / π * (offSq D * ∑ i, y i ^ 2) + π * ∑ i, y i ^ 2 := by linarith
      _ = _ := by ring
  have hzz : ∑ i, z i ^ 2 ≤ (offSq D / π ^ 2 + 1) * ∑ i, y i ^ 2 := by
    have : ∀ i ∈ univ, z i ^ 2 ≤ 1 / π ^ 2 * offMul D y i ^ 2 + 1 * y i ^ 2 := by
      intro i _
      have q1 : 0 ≤ 1 / π ^ 2 * offMul D y i ^ 2 := by positivity
      have q2 : 0 ≤ y i ^ 2 := sq_nonneg _
      rw [hz]
      dsimp only
      split
      · rename_i h
        rw [abs_of_nonneg (hdiag i)] at h
        have e : (offMul D y i / D i i) ^ 2 = 1 / D i i ^ 2 * offMul D y i ^ 2 := by rw [div_pow]; ring
        rw [e]
        have := mul_le_mul_of_nonneg_right (one_div_le_one_div_of_le (by positivity) (pow_le_pow_left₀ hπ.le h 2)) (sq_nonneg (offMul D y i))
        linarith
      · rw [neg_sq]
        linarith
    refine (Finset.sum_le_sum this).trans ?_
    rw [Finset.sum_add_distrib, ← Finset.mul_sum, ← Finset.mul_sum]
    have := mul_le_mul_of_nonneg_left hoy (show 0 ≤ 1 / π ^ 2 by positivity)
    calc 1 / π ^ 2 * ∑ i, offMul D y i ^ 2 + 1 * ∑ i, y i ^ 2 ≤ 1 / π ^ 2 * (offSq D * ∑ i, y i ^ 2) + 1 * ∑ i, y i ^ 2 := by linarith
      _ = _ := by ring
  have hr := off_form D z
  have := mul_le_mul_of_nonneg_left hzz (Real.sqrt_nonneg (offSq D))
  rw [hsplit]
  calc _ ≤ (offSq D / π + π) * ∑ i, y i ^ 2 + Real.sqrt (offSq D) * ((offSq D / π ^ 2 + 1) * ∑ i, y i ^ 2) := by linarith
    _ = _ := by ring

theorem quad_min {a b : ℝ} (hb : 0 ≤ b) (h : ∀ t : ℝ, 0 ≤ 2 * t * a + t ^ 2 * b) : a = 0 := by
  have key := h (-a / (b + 1))
  have hb1 : 0 < b + 1 := by linarith
  have h1 : 2 * (-a / (b + 1)) * a + (-a / (b + 1)) ^ 2 * b = -(a ^ 2 * (b + 2)) / (b + 1) ^ 2 := by
    field_simp
    ring
  rw [h1, le_div_iff₀ (by positivity), zero_mul] at key
  have h3 : a ^ 2 * (b + 2) = 0 := le_antisymm (by linarith) (by positivity)
  rcases mul_eq_zero.1 h3 with e | e
  · exact pow_eq_zero_iff (two_ne_zero) |>.1 e
  · linarith

/-- Least squares: the normal equations and the excess over the least error. -/
theorem least_squares {M : Matrix (Fin n) (Fin n) ℝ} {b c : Fin n → ℝ}
    (h : ∀ y, (M *ᵥ c - b) ⬝ᵥ (M *ᵥ c - b) ≤ (M *ᵥ y - b) ⬝ᵥ (M *ᵥ y - b)) :
    M.transpose *ᵥ b = (M.transpose * M) *ᵥ c ∧
    ∀ v, (M *ᵥ v - b) ⬝ᵥ (M *ᵥ v - b) = (M *ᵥ c - b) ⬝ᵥ (M *ᵥ c - b) + (v - c) ⬝ᵥ ((M.transpose * M) *ᵥ (v - c)) := by
  set g := M.transpose *ᵥ (M *ᵥ c - b) with hg
  have hexp : ∀ w : Fin n → ℝ, (M *ᵥ (c + w) - b) ⬝ᵥ (M *ᵥ (c + w) - b) =
      (M *ᵥ c - b) ⬝ᵥ (M *ᵥ c - b) + 2 * (w ⬝ᵥ g) + w ⬝ᵥ ((M.transpose * M) *ᵥ w) := by
    intro w
    have e1 : M *ᵥ (c + w) - b = (M *ᵥ c - b) + M *ᵥ w := by rw [Matrix.mulVec_add]; abel
    rw [e1, add_dotProduct, dotProduct_add, dotProduct_add, dotProduct_comm (M *ᵥ c - b) (M *ᵥ w), dot_mulVec_left, dot_mulVec_left,
      Matrix.mulVec_mulVec]
    ring
  have hg0 : g = 0 := by
    apply dot_self_zero
    refine quad_min (b := g ⬝ᵥ ((M.transpose * M) *ᵥ g)) ?_ fun t => ?_
    · rw [← Matrix.mulVec_mulVec, ← dot_mulVec_left]; exact dot_self_nonneg _
    · have := h (c + t • g)
      rw [hexp, Matrix.mulVec_smul, smul_dotProduct, smul_dotProduct, dotProduct_smul] at this
      simp only [smul_eq_mul] at this
      have e : t ^ 2 * g ⬝ᵥ ((M.transpose * M) *ᵥ g) = t * (t * g ⬝ᵥ ((M.transpose * M) *ᵥ g)) := by ring
      rw [e]
      linarith
  constructor
  · rw [hg, Matrix.mulVec_sub, Matrix.mulVec_mulVec, sub_eq_zero] at hg0
    exact hg0.symm
  · intro v
    have := hexp (v - c)
    rw [hg0, dotProduct_zero, mul_zero, add_zero, add_sub_cancel] at this
    exact this

end

end Isomesh
