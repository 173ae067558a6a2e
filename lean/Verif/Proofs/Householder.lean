import Verif.Proofs.QefReal
import Mathlib.Algebra.BigOperators.Intervals
import Mathlib.Algebra.BigOperators.Ring.Finset
import Mathlib.Algebra.Order.BigOperators.Ring.Finset
import Mathlib.Tactic.FieldSimp

/-! Householder reflections preserve the row quadratic form and triangularise. -/

namespace Isomesh

open Spec Finset

theorem sum_range'_eq (f : Nat → ℝ) (i n : Nat) : ((List.range' i (n - i)).map f).sum = ∑ k ∈ Finset.Ico i n, f k := by
  rfl

variable {d : Nat}

/-- Row form: `y_k = Σ_j A j k x_j`. -/
def rowDot (A : QMat ℝ d) (x : Fin (d + 1) → ℝ) (k : Nat) : ℝ := ∑ j, A j k * x j

theorem hhNorm_eq (used : Nat) (A : QMat ℝ d) (i : Fin (d + 1)) :
    hhNorm used A i = ∑ k ∈ Finset.Ico (i : Nat) used, A i k * A i k := by
  rw [hhNorm, sumL_real]; exact sum_range'_eq _ _ _

theorem hhNorm_nonneg (used : Nat) (A : QMat ℝ d) (i : Fin (d + 1)) : 0 ≤ hhNorm used A i := by
  rw [hhNorm_eq]
  exact Finset.sum_nonneg fun k _ => mul_self_nonneg _

theorem hhNorm_zero {used : Nat} {A : QMat ℝ d} {i : Fin (d + 1)} (h : hhNorm used A i = 0) {k : Nat}
    (h1 : (i : Nat) ≤ k) (h2 : k < used) : A i k = 0 := by
  rw [hhNorm_eq, Finset.sum_eq_zero_iff_of_nonneg (fun k _ => mul_self_nonneg _)] at h
  exact mul_self_eq_zero.1 (h k (Finset.mem_Ico.2 ⟨h1, h2⟩))

/-- `invgamma * |v|^2 = 2` over the rows that are touched (if any). -/
theorem hh_gamma {tiny : ℝ} (ht : 0 < tiny) {used : Nat} {A : QMat ℝ d} {i : Fin (d + 1)} (hi : (i : Nat) < used) :
    hhInvGamma tiny used A i * (∑ k ∈ Finset.Ico (i : Nat) used, hhVec tiny used A i k * hhVec tiny used A i k) = 2 := by
  have hmem : (i : Nat) ∈ Finset.Ico (i : Nat) used := Finset.mem_Ico.2 ⟨le_refl _, hi⟩
  by_cases hn : hhNorm used A i < tiny
  · have hv : ∀ k, hhVec tiny used A i k = if k = i then 1 else 0 := by
      intro k; simp [hhVec, hn]
    simp only [hv, hhInvGamma, if_pos hn]
    rw [Finset.sum_eq_single (i : Nat)]
    · simp
    · intro b _ hb; simp [hb]
    · intro h; exact absurd hmem h
  · have hpos : 0 < hhNorm used A i := lt_of_lt_of_le ht (not_lt.1 hn)
    set N := hhNorm used A i with hN
    set r := Real.sqrt N with hr
    have hrpos : 0 < r := Real.sqrt_pos.2 hpos
    have hrr : r * r = N := Real.mul_self_sqrt hpos.le
    set u : Nat → ℝ := fun k => A i k * (1 / r) with hu
    have hv : ∀ k ∈ Finset.Ico (i : Nat) used, hhVec tiny used A i k =
        if k = i then (if u k ≥ 0 then u k + 1 else u k - 1) else u k := by
      intro k hk
      simp only [Finset.mem_Ico] at hk
      simp only [hhVec, if_neg hn, ← hN, elem_sqrt, ← hr, hk, and_self, if_true, hu]
    have hunit : ∑ k ∈ Finset.Ico (i : Nat) used, u k * u k = 1 := by
      have : ∀ k, u k * u k = (A i k * A i k) * (1 / N) := by
        intro k; simp only [hu]; rw [← hrr]; field_simp
      simp only [this]
      rw [← Finset.sum_mul, ← hhNorm_eq, ← hN]
      field_simp
    have hvv : ∀ k ∈ Finset.Ico (i : Nat) used, hhVec tiny used A i k * hhVec tiny used A i k =
        u k * u k + if k = i then 2 * |u i| + 1 else 0 := by
      intro k hk
      rw [hv k hk]
      by_cases hki : k = i
      · subst hki
        simp only [if_true]
        by_cases hge : u i ≥ 0
        · simp only [if_pos hge, abs_of_nonneg hge]; ring
        · simp only [if_neg hge, abs_of_neg (not_le.1 hge)]; ring
      · simp [hki]
    rw [Finset.sum_congr rfl hvv, Finset.sum_add_distrib, hunit]
    rw [Finset.sum_ite_eq' (Finset.Ico (i : Nat) used) (i : Nat)]
    rw [if_pos hmem]
    have hg : hhInvGamma tiny used A i = 1 / (1 + |u i|) := by
      unfold hhInvGamma
      rw [← hN, if_neg hn, hv _ hmem]
      simp only [if_true, fabs_abs]
      congr 1
      by_cases hge : u i ≥ 0
      · simp only [if_pos hge, abs_of_nonneg hge]; rw [abs_of_nonneg (by linarith)]; ring
      · simp only [if_neg hge, abs_of_neg (not_le.1 hge)]
        rw [abs_of_neg (by linarith [not_le.1 hge])]; ring
    rw [hg]
    have : (0:ℝ) < 1 + |u i| := by positivity
    field_simp
    ring

/-- The reflected column: zero below the diagonal. -/
theorem hh_column {tiny : ℝ} (ht : 0 < tiny) {used : Nat} {A : QMat ℝ d} {i : Fin (d + 1)}
    (hc : hhNorm used A i = 0 ∨ tiny ≤ hhNorm used A i) {k : Nat} (h1 : (i : Nat) < k) (h2 : k < used) :
    hhStep tiny used A i i k = 0 := by
  have hi : (i : Nat) < used := lt_trans h1 h2
  have hmem : (i : Nat) ∈ Finset.Ico (i : Nat) used := Finset.mem_Ico.2 ⟨le_refl _, hi⟩
  simp only [hhStep, le_refl, true_and]
  rw [if_pos ⟨h1.le, h2⟩, sumL_real, sum_range'_eq]
  rcases hc with hz | hbig
  · have : ∑ k ∈ Finset.Ico (i : Nat) used, A i k * hhVec tiny used A i k = 0 := by
      apply Finset.sum_eq_zero
      intro k hk
      have := Finset.mem_Ico.1 hk
      rw [hhNorm_zero hz this.1 this.2, zero_mul]
    rw [this, hhNorm_zero hz h1.le h2]
    ring
  · have hn : ¬ hhNorm used A i < tiny := not_lt.2 hbig
    have hpos : 0 < hhNorm used A i := lt_of_lt_of_le ht hbig
    set N := hhNorm used A i with hN
    set r := Real.sqrt N with hr
    have hrpos : 0 < r := Real.sqrt_pos.2 hpos
    have hrr : r * r = N := Real.mul_self_sqrt hpos.le
    set u : Nat → ℝ := fun k => A i k * (1 / r) with hu
    have hv : ∀ k ∈ Finset.Ico (i : Nat) used, hhVec tiny used A i k =
        if k = i then (if u k ≥ 0 then u k + 1 else u k - 1) else u k := by
      intro k hk
      simp only [Finset.mem_Ico] at hk
      simp only [hhVec, if_neg hn, ← hN, elem_sqrt, ← hr, hk, and_self, if_true, hu]
    have hunit : ∑ k ∈ Finset.Ico (i : Nat) used, u k * u k = 1 := by
      have : ∀ k, u k * u k = (A i k * A i k) * (1 / N) := by
        intro k; simp only [hu]; rw [← hrr]; field_simp
      simp only [this]
      rw [← Finset.sum_mul, ← hhNorm_eq, ← hN]
      field_simp
    have hAu : ∀ k, A i k = r * u k := by
      intro k; simp only [hu]; field_simp
    have hdot : ∑ k ∈ Finset.Ico (i : Nat) used, A i k * hhVec tiny used A i k = r * (1 + |u i|) := by
      have : ∀ k ∈ Finset.Ico (i : Nat) used, A i k * hhVec tiny used A i k =
          r * (u k * u k) + if k = i then r * |u i| else 0 := by
        intro k hk
        rw [hv k hk, hAu k]
        by_cases hki : k = i
        · subst hki
          simp only [if_true]
          by_cases hge : u i ≥ 0
          · simp only [if_pos hge, abs_of_nonneg hge]; ring
          · simp only [if_neg hge, abs_of_neg (not_le.1 hge)]; ring
        · simp [hki]; ring
      rw [Finset.sum_congr rfl this, Finset.sum_add_distrib, ← Finset.mul_sum, hunit,
        Finset.sum_ite_eq' (Finset.Ico (i : Nat) used) (i : Nat), if_pos hmem]
      ring
    have hg : hhInvGamma tiny used A i = 1 / (1 + |u i|) := by
      unfold hhInvGamma
      rw [← hN, if_neg hn, hv _ hmem]
      simp only [if_true, fabs_abs]
      congr 1
      by_cases hge : u i ≥ 0
      · simp only [if_pos hge, abs_of_nonneg hge]; rw [abs_of_nonneg (by linarith)]; ring
      · simp only [if_neg hge, abs_of_neg (not_le.1 hge)]
        rw [abs_of_neg (by linarith [not_le.1 hge])]; ring
    rw [hdot, hg, hv k (Finset.mem_Ico.2 ⟨h1.le, h2⟩), if_neg (by omega), hAu k]
    have : (0:ℝ) < 1 + |u i| := by positivity
    field_simp
    ring

theorem hhStep_col_lt {tiny : ℝ} {used : Nat} {A : QMat ℝ d} {i j : Fin (d + 1)} (h : j < i) (k : Nat) :
    hhStep tiny used A i j k = A j k := by
  simp only [hhStep]
  rw [if_neg]
  intro hh
  exact absurd hh.1 (not_le.2 h)

theorem hhStep_row {tiny : ℝ} {used : Nat} {A : QMat ℝ d} {i j : Fin (d + 1)} {k : Nat} (h : k < i ∨ used ≤ k) :
    hhStep tiny used A i j k = A j k := by
  simp only [hhStep]
  rw [if_neg]
  omega

/-- One reflection preserves the sum of squares of the rows. -/
theorem hhStep_form {tiny : ℝ} (ht : 0 < tiny) {used : Nat} {A : QMat ℝ d} {i : Fin (d + 1)}
    (hz : ∀ j < i, ∀ k, (i : Nat) ≤ k → k < used → A j k = 0) (x : Fin (d + 1) → ℝ) :
    ∑ k ∈ Finset.range used, rowDot (hhStep tiny used A i) x k ^ 2 = ∑ k ∈ Finset.range used, rowDot A x k ^ 2 := by
  by_cases hi : (i : Nat) < used
  swap
  · have : ∀ k ∈ Finset.range used, rowDot (hhStep tiny used A i) x k ^ 2 = rowDot A x k ^ 2 := by
      intro k hk
      have hk := Finset.mem_range.1 hk
      congr 1
      apply Finset.sum_congr rfl
      intro j _
      rw [hhStep_row (by omega)]
    exact Finset.sum_congr rfl this
  · set v := hhVec tiny used A i with hvd
    set g := hhInvGamma tiny used A i with hgd
    have hg := hh_gamma ht (A := A) hi
    rw [← hvd, ← hgd] at hg
    -- the rows in `[i, used)` are reflected
    set s := ∑ k ∈ Finset.Ico (i : Nat) used, rowDot A x k * v k with hs
    have hrow : ∀ k ∈ Finset.Ico (i : Nat) used, rowDot (hhStep tiny used A i) x k = rowDot A x k - s * g * v k := by
      intro k hk
      have hk := Finset.mem_Ico.1 hk
      have hterm : ∀ j, hhStep tiny used A i j k * x j =
          A j k * x j - (∑ k' ∈ Finset.Ico (i : Nat) used, A j k' * x j * v k') * g * v k := by
        intro j
        by_cases hj : j < i
        · rw [hhStep_col_lt hj]
          have : ∑ k' ∈ Finset.Ico (i : Nat) used, A j k' * x j * v k' = 0 := by
            apply Finset.sum_eq_zero
            intro k' hk'
            have := Finset.mem_Ico.1 hk'
            rw [hz j hj k' this.1 this.2]; ring
          rw [this]; ring
        · have hj' : i ≤ j := not_lt.1 hj
          simp only [hhStep]
          rw [if_pos ⟨hj', hk.1, hk.2⟩, sumL_real, sum_range'_eq, ← hvd, ← hgd]
          have : ∑ k' ∈ Finset.Ico (i : Nat) used, A j k' * x j * v k' =
              (∑ k' ∈ Finset.Ico (i : Nat) used, A j k' * v k') * x j := by
            rw [Finset.sum_mul]
            apply Finset.sum_congr rfl
            intro k' _; ring
          rw [this]; ring
      unfold rowDot
      simp only [hterm]
      rw [Finset.sum_sub_distrib, ← Finset.sum_mul, ← Finset.sum_mul, Finset.sum_comm]
      congr 3
      rw [hs]
      apply Finset.sum_congr rfl
      intro k' _
      unfold rowDot
      rw [Finset.sum_mul]
    have hlow : ∀ k ∈ Finset.range (i : Nat), rowDot (hhStep tiny used A i) x k ^ 2 = rowDot A x k ^ 2 := by
      intro k hk
      have hk := Finset.mem_range.1 hk
      congr 1
      apply Finset.sum_congr rfl
      intro j _
      rw [hhStep_row (Or.inl hk)]
    rw [Finset.range_eq_Ico, ← Finset.sum_Ico_consecutive _ (Nat.zero_le (i : Nat)) hi.le,
      ← Finset.sum_Ico_consecutive _ (Nat.zero_le (i : Nat)) hi.le, ← Finset.range_eq_Ico,
      Finset.sum_congr rfl hlow]
    congr 1
    have hsq : ∀ k ∈ Finset.Ico (i : Nat) used, rowDot (hhStep tiny used A i) x k ^ 2 =
        rowDot A x k ^ 2 - 2 * s * g * (rowDot A x k * v k) + (s * g) ^ 2 * (v k * v k) := by
      intro k hk
      rw [hrow k hk]; ring
    rw [Finset.sum_congr rfl hsq, Finset.sum_add_distrib, Finset.sum_sub_distrib, ← Finset.mul_sum, ← Finset.mul_sum,
      ← hs]
    have : (s * g) ^ 2 * ∑ k ∈ Finset.Ico (i : Nat) used, v k * v k =
        s ^ 2 * g * (g * ∑ k ∈ Finset.Ico (i : Nat) used, v k * v k) := by ring
    rw [this, hg]; ring

theorem fold_row {tiny : ℝ} {used : Nat} (l : List (Fin (d + 1))) (A : QMat ℝ d) {k : Nat} (h : used ≤ k)
    (j : Fin (d + 1)) : l.foldl (hhStep tiny used) A j k = A j k := by
  induction l generalizing A with
  | nil => rfl
  | cons i l ih => rw [List.foldl_cons, ih, hhStep_row (Or.inr h)]

/-- The whole triangularisation, columns `m, m + 1, ..`. -/
theorem fold_hh {tiny : ℝ} (ht : 0 < tiny) {used : Nat} (n m : Nat) (hnm : n + m = d + 1) (A : QMat ℝ d)
    (hz : ∀ j : Fin (d + 1), (j : Nat) < m → ∀ k, (j : Nat) < k → k < used → A j k = 0)
    (hc : NoTiny tiny used ((List.finRange (d + 1)).drop m) A) :
    (∀ (j : Fin (d + 1)) (k : Nat), (j : Nat) < k → k < used → ((List.finRange (d + 1)).drop m).foldl (hhStep tiny used) A j k = 0) ∧
    (∀ x, ∑ k ∈ Finset.range used, rowDot (((List.finRange (d + 1)).drop m).foldl (hhStep tiny used) A) x k ^ 2 =
      ∑ k ∈ Finset.range used, rowDot A x k ^ 2) := by
  induction n generalizing m A with
  | zero =>
    have : (List.finRange (d + 1)).drop m = [] := List.drop_eq_nil_of_le (by simp; omega)
    rw [this]
    exact ⟨fun j k h1 h2 => hz j (by omega) k h1 h2, fun x => rfl⟩
  | succ n ih =>
    have hm : m < d + 1 := by omega
    have hd : (List.finRange (d + 1)).drop m = ⟨m, hm⟩ :: (List.finRange (d + 1)).drop (m + 1) := by
      rw [List.drop_eq_getElem_cons (by simpa using hm)]
      simp
    rw [hd] at hc ⊢
    obtain ⟨hc1, hc2⟩ := hc
    rw [List.foldl_cons]
    obtain ⟨i1, i2⟩ := ih (m + 1) (by omega) (hhStep tiny used A ⟨m, hm⟩) (by
      intro j hj k h1 h2
      by_cases hjm : (j : Nat) < m
      · rw [hhStep_col_lt (show j < ⟨m, hm⟩ from hjm)]
        exact hz j hjm k h1 h2
      · have : j = ⟨m, hm⟩ := Fin.ext (by simp; omega)
        subst this
        exact hh_column ht hc1 h1 h2) hc2
    refine ⟨i1, fun x => ?_⟩
    rw [i2 x]
    exact hhStep_form ht (fun j hj k h1 h2 => hz j hj k (lt_of_lt_of_le hj h1) h2) x

end Isomesh
