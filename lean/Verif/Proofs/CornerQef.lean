import Verif.Proofs.BoxQef

/-! Systems of planes that are spread enough: the triangularisation keeps the normal equations, and the approximate eigen decomposition gives a
point close to their solution. -/

namespace Isomesh

open Spec Finset Matrix

section
variable {d : Nat} {tiny : ℝ} {used : Nat} {A : QMat ℝ d}

/-- The rows from `i` on bound the length of every vector of the columns from `i` on, except for the last one. -/
def Spread (m : ℝ) (i used : Nat) (A : QMat ℝ d) : Prop :=
  ∀ u : Fin (d + 1) → ℝ, (∀ j : Fin (d + 1), (j : Nat) < i → u j = 0) → u (Fin.last d) = 0 →
    m * ∑ j, u j ^ 2 ≤ ∑ r ∈ Finset.Ico i used, rowDot A u r ^ 2

theorem rowDot_single (A : QMat ℝ d) (i : Fin (d + 1)) (t : ℝ) (r : Nat) : rowDot A (Pi.single i t) r = A i r * t := by
  unfold rowDot
  simp [Pi.single_apply]

theorem rowDot_add (A : QMat ℝ d) (u v : Fin (d + 1) → ℝ) (r : Nat) : rowDot A (u + v) r = rowDot A u r + rowDot A v r := by
  unfold rowDot
  simp [mul_add, Finset.sum_add_distrib]

theorem spread_norm {m : ℝ} {i : Fin (d + 1)} (hi : i ≠ Fin.last d) (h : Spread m i used A) : m ≤ hhNorm used A i := by
  have := h (Pi.single i 1) (fun j hj => by
    rw [Pi.single_apply, if_neg]; rintro rfl; omega) (by rw [Pi.single_apply, if_neg (Ne.symm hi)])
  have h1 : ∑ j : Fin (d + 1), (Pi.single i 1 : Fin (d + 1) → ℝ) j ^ 2 = 1 := by
    rw [Finset.sum_eq_single i]
    · simp
    · intro b _ hb; simp [hb]
    · intro hcon; exact absurd (Finset.mem_univ i) hcon
  rw [h1, mul_one] at this
  rw [hhNorm_eq]
  refine this.trans (le_of_eq ?_)
  apply Finset.sum_congr rfl
  intro r _
  rw [rowDot_single]; ring

theorem spread_step {m : ℝ} (ht : 0 < tiny) (hm : tiny ≤ m) {i : Fin (d + 1)} (hi : i ≠ Fin.last d)
    (hz : ∀ j < i, ∀ k, (i : Nat) ≤ k → k < used → A j k = 0) (h : Spread m i used A) :
    (i : Nat) < used ∧ Spread m (i + 1) used (hhStep tiny used A i) := by
  have hn : tiny ≤ hhNorm used A i := hm.trans (spread_norm hi h)
  have hlt : (i : Nat) < used := by
    by_contra hcon
    rw [hhNorm_colDot, colDot_empty (by omega)] at hn
    linarith
  refine ⟨hlt, ?_⟩
  have hcol : ∀ r, (i : Nat) < r → r < used → hhStep tiny used A i i r = 0 := fun r h1 h2 => hh_column ht (Or.inr hn) h1 h2
  have hform := fun x => hhStep_form ht hz x
  have hform' : ∀ x, ∑ k ∈ Finset.Ico (i : Nat) used, rowDot (hhStep tiny used A i) x k ^ 2 = ∑ k ∈ Finset.Ico (i : Nat) used, rowDot A x k ^ 2 := by
    intro x
    have := hform x
    rw [← Finset.sum_range_add_sum_Ico _ hlt.le, ← Finset.sum_range_add_sum_Ico (fun k => rowDot A x k ^ 2) hlt.le] at this
    have hlow : ∑ k ∈ Finset.range (i : Nat), rowDot (hhStep tiny used A i) x k ^ 2 = ∑ k ∈ Finset.range (i : Nat), rowDot A x k ^ 2 := by
      apply Finset.sum_congr rfl
      intro k hk
      have hk := Finset.mem_range.1 hk
      congr 1
      exact Finset.sum_congr rfl fun j _ => by rw [hhStep_row (Or.inl hk)]
    linarith
  set B := hhStep tiny used A i with hB
  have hne : B i i ≠ 0 := by
    intro h0
    have e := colDot_step (tiny := tiny) (used := used) (A := A) (i := i) (j := i) (k := i) ht (le_refl i) (le_refl i)
    rw [← hB, colDot_succ hlt, h0] at e
    have hz' : colDot (i + 1) used B i i = 0 := by
      unfold colDot
      apply Finset.sum_eq_zero
      intro r hr
      have hr := Finset.mem_Ico.1 hr
      rw [hcol r (by omega) hr.2, zero_mul]
    rw [hz', ← hhNorm_colDot] at e
    linarith
  intro u hu hlast
  set t := - (rowDot B u i / B i i) with htd
  have hrow : rowDot B (u + Pi.single i t) i = 0 := by
    rw [rowDot_add, rowDot_single, htd]
    field_simp
    ring
  have hrow' : ∀ r ∈ Finset.Ico ((i : Nat) + 1) used, rowDot B (u + Pi.single i t) r ^ 2 = rowDot B u r ^ 2 := by
    intro r hr
    have hr := Finset.mem_Ico.1 hr
    rw [rowDot_add, rowDot_single, hcol r (by omega) hr.2]
    ring
  have key := h (u + Pi.single i t) (fun j hj => by
    rw [Pi.add_apply, hu j (by omega), Pi.single_apply, if_neg (by rintro rfl; omega), add_zero]) (by
    rw [Pi.add_apply, hlast, Pi.single_apply, if_neg (Ne.symm hi), add_zero])
  rw [← hform', Finset.sum_eq_sum_Ico_succ_bot hlt, hrow, Finset.sum_congr rfl hrow'] at key
  have hge : ∑ j, u j ^ 2 ≤ ∑ j, (u + Pi.single i t : Fin (d + 1) → ℝ) j ^ 2 := by
    apply Finset.sum_le_sum
    intro j _
    by_cases hj : j = i
    · subst hj
      rw [hu j (by omega)]
      have := sq_nonneg ((u + Pi.single j t : Fin (d + 1) → ℝ) j)
      simpa using this
    · rw [Pi.add_apply, Pi.single_apply, if_neg hj, add_zero]
  have hm0 : 0 < m := lt_of_lt_of_le ht hm
  have := mul_le_mul_of_nonneg_left hge hm0.le
  linarith

/-- The triangularisation of rows that are spread enough. -/
theorem fold_spread {m : ℝ} (ht : 0 < tiny) (hm : tiny ≤ m) (n i : Nat) (hni : n + i = d) :
    ∀ A : QMat ℝ d, (∀ j : Fin (d + 1), (j : Nat) < i → ∀ k, (j : Nat) < k → k < used → A j k = 0) → Spread m i used A →
      (i < d → d ≤ used) ∧
      (∀ j : Fin (d + 1), j ≠ Fin.last d → ∀ k, (j : Nat) < k → k < used → ((List.finRange (d + 1)).drop i).foldl (hhStep tiny used) A j k = 0) ∧
      ∀ a b : Fin (d + 1), a ≠ Fin.last d →
        colDot 0 used (((List.finRange (d + 1)).drop i).foldl (hhStep tiny used) A) a b = colDot 0 used A a b := by
  induction n generalizing i with
  | zero =>
    intro A hz hs
    have hid : i = d := by omega
    subst hid
    have hd : (List.finRange (i + 1)).drop i = [Fin.last i] := by
      rw [List.drop_eq_getElem_cons (by simp)]
      rw [List.drop_eq_nil_of_le (by simp)]
      congr 1
      apply Fin.ext
      simp
    rw [hd, List.foldl_cons, List.foldl_nil]
    have hlt : ∀ j : Fin (i + 1), j ≠ Fin.last i → j < Fin.last i := fun j hj => lt_of_le_of_ne (Fin.le_last j) hj
    refine ⟨fun h => absurd h (lt_irrefl _), ?_, ?_⟩
    · intro j hj k h1 h2
      rw [hhStep_col_lt (hlt j hj)]
      exact hz j (hlt j hj) k h1 h2
    · intro a b ha
      unfold colDot
      apply Finset.sum_congr rfl
      intro r hr
      have hr := Finset.mem_Ico.1 hr
      rw [hhStep_col_lt (hlt a ha)]
      by_cases h1 : r < i
      · rw [hhStep_row (Or.inl (by simpa using h1))]
      · have := hz a (hlt a ha) r (lt_of_lt_of_le (show (a : Nat) < i from hlt a ha) (not_lt.1 h1)) hr.2
        rw [this]; ring
  | succ n ih =>
    intro A hz hs
    have hi : i < d + 1 := by omega
    have hne : (⟨i, hi⟩ : Fin (d + 1)) ≠ Fin.last d := by
      intro h; have := congrArg Fin.val h; simp at this; omega
    have hd : (List.finRange (d + 1)).drop i = ⟨i, hi⟩ :: (List.finRange (d + 1)).drop (i + 1) := by
      rw [List.drop_eq_getElem_cons (by simpa using hi)]
      simp
    have hz' : ∀ j < (⟨i, hi⟩ : Fin (d + 1)), ∀ k, i ≤ k → k < used → A j k = 0 := fun j hj k h1 h2 => hz j hj k (lt_of_lt_of_le hj h1) h2
    obtain ⟨h1, h2⟩ := spread_step (i := ⟨i, hi⟩) ht hm hne hz' hs
    have hn : tiny ≤ hhNorm used A ⟨i, hi⟩ := hm.trans (spread_norm (i := ⟨i, hi⟩) hne hs)
    obtain ⟨i1, i2, i3⟩ := ih (i + 1) (by omega) (hhStep tiny used A ⟨i, hi⟩) (by
      intro j hj k k1 k2
      by_cases hji : (j : Nat) < i
      · rw [hhStep_col_lt (show j < ⟨i, hi⟩ from hji)]
        exact hz j hji k k1 k2
      · have : j = ⟨i, hi⟩ := Fin.ext (by simp; omega)
        subst this
        exact hh_column ht (Or.inr hn) k1 k2) h2
    rw [hd, List.foldl_cons]
    refine ⟨fun _ => ?_, i2, ?_⟩
    · by_cases hid : i + 1 < d
      · exact i1 hid
      · have : i < used := h1
        omega
    · intro a b ha
      rw [i3 a b ha]
      exact form_colDot (hhStep_form ht hz') a b

/-- Compression keeps the normal equations of a system that is spread enough. -/
theorem compress_spread {M : Nat} {m : ℝ} (ht : 0 < tiny) (hm : tiny ≤ m) (hd : 0 < d) {q q1 : Qef ℝ d} (hs : Spread m 0 q.usedRows q.A)
    (h : q.compressMatrix M tiny = some q1) :
    q1 = { q with A := q1.A, usedRows := d + 1 } ∧
    (∀ a b : Fin d, (q1.leftMat.transpose * q1.leftMat) a b = colDot 0 q.usedRows q.A a.castSucc b.castSucc) ∧
    ∀ a : Fin d, (q1.leftMat.transpose *ᵥ fun r : Fin d => q1.A (Fin.last d) r) a = colDot 0 q.usedRows q.A a.castSucc (Fin.last d) := by
  unfold Qef.compressMatrix householder at h
  split at h
  swap
  · simp at h
  simp only [Option.bind_eq_bind, Option.bind_some, Option.some.injEq] at h
  obtain ⟨k1, k2, k3⟩ := fold_spread (d := d) ht hm d 0 rfl q.A (by intro j hj; omega) hs
  simp only [List.drop_zero] at k2 k3
  set C := (List.finRange (d + 1)).foldl (hhStep tiny q.usedRows) q.A with hC
  have hused := k1 hd
  have key : ∀ (a : Fin d) (b : Fin (d + 1)), ∑ k : Fin d, C a.castSucc k * C b k = colDot 0 q.usedRows q.A a.castSucc b := by
    intro a b
    rw [← k3 a.castSucc b (Fin.castSucc_lt_last a).ne, Fin.sum_univ_eq_sum_range (fun k => C a.castSucc k * C b k) d]
    unfold colDot
    rw [← Finset.range_eq_Ico, ← Finset.sum_range_add_sum_Ico _ hused]
    have : ∑ k ∈ Finset.Ico d q.usedRows, C a.castSucc k * C b k = 0 := by
      apply Finset.sum_eq_zero
      intro r hr
      have hr := Finset.mem_Ico.1 hr
      rw [k2 a.castSucc (Fin.castSucc_lt_last a).ne r (by simp; omega) hr.2, zero_mul]
    rw [this, add_zero]
  subst h
  exact ⟨rfl, fun a b => key a b.castSucc, fun a => key a (Fin.last d)⟩

end

/-! ### The approximate pseudo-inverse -/

section
variable {n : Nat}

theorem cauchy_row (r y : Fin n → ℝ) : (∑ j, r j * y j) ^ 2 ≤ (∑ j, r j ^ 2) * ∑ j, y j ^ 2 := Finset.sum_mul_sq_le_sq_mul_sq _ _ _

theorem orth_norm {E : Matrix (Fin n) (Fin n) ℝ} (hE : E.transpose * E = 1) (y : Fin n → ℝ) : (E *ᵥ y) ⬝ᵥ (E *ᵥ y) = y ⬝ᵥ y := by
  rw [dot_mulVec_left, Matrix.mulVec_mulVec, hE, Matrix.one_mulVec]

/-- The point found with an approximate eigen decomposition. -/
theorem approx_pinv {S E D : Matrix (Fin n) (Fin n) ℝ} (hE : E.transpose * E = 1) (hE' : E * E.transpose = 1) (hS : S = E * D * E.transpose)
    {m : ℝ} (hm : 0 < m) (hSm : ∀ u : Fin n → ℝ, m * u ⬝ᵥ u ≤ u ⬝ᵥ (S *ᵥ u)) :
    (∀ i, m ≤ D i i) ∧ ∀ x p : Fin n → ℝ,
      let v := (E * Matrix.diagonal (fun i => 1 / D i i) * E.transpose) *ᵥ (S *ᵥ x - S *ᵥ p) + p
      (v - x) ⬝ᵥ (v - x) ≤ offSq D / m ^ 2 * ((p - x) ⬝ᵥ (p - x)) := by
  have hD : D = E.transpose * S * E := by
    rw [hS]
    calc D = (E.transpose * E) * D * (E.transpose * E) := by rw [hE, Matrix.one_mul, Matrix.mul_one]
      _ = _ := by simp only [Matrix.mul_assoc]
  have hdiag : ∀ i, m ≤ D i i := by
    intro i
    have := hSm (E *ᵥ Pi.single i 1)
    rw [orth_norm hE] at this
    have e1 : (Pi.single i 1 : Fin n → ℝ) ⬝ᵥ Pi.single i 1 = 1 := by simp
    have e2 : (E *ᵥ Pi.single i 1) ⬝ᵥ (S *ᵥ (E *ᵥ Pi.single i 1)) = D i i := by
      rw [dot_mulVec_left, Matrix.mulVec_mulVec, Matrix.mulVec_mulVec, ← hD]
      simp
    rw [e1, e2, mul_one] at this
    exact this
  refine ⟨hdiag, ?_⟩
  intro x p v
  set y := E.transpose *ᵥ (x - p) with hy
  have hxp : x - p = E *ᵥ y := by rw [hy, Matrix.mulVec_mulVec, hE', Matrix.one_mulVec]
  have hyy : (p - x) ⬝ᵥ (p - x) = y ⬝ᵥ y := by
    have : p - x = -(x - p) := by abel
    rw [this, neg_dotProduct_neg, hxp, orth_norm hE]
  -- the difference, in the basis of the eigenvectors
  set z : Fin n → ℝ := fun i => 1 / D i i * ∑ j, (if i = j then 0 else D i j) * y j with hz
  have hv : v - x = E *ᵥ z := by
    have e1 : v - x = (E * Matrix.diagonal (fun i => 1 / D i i) * E.transpose) *ᵥ (S *ᵥ (x - p)) - (x - p) := by
      rw [Matrix.mulVec_sub]
      show (E * Matrix.diagonal (fun i => 1 / D i i) * E.transpose) *ᵥ (S *ᵥ x - S *ᵥ p) + p - x = _
      abel
    have e2 : (E * Matrix.diagonal (fun i => 1 / D i i) * E.transpose) *ᵥ (S *ᵥ (x - p)) = E *ᵥ (Matrix.diagonal (fun i => 1 / D i i) *ᵥ (D *ᵥ y)) := by
      rw [hxp, hS]
      simp only [Matrix.mulVec_mulVec]
      congr 1
      calc E * Matrix.diagonal (fun i => 1 / D i i) * E.transpose * (E * D * E.transpose * E)
          = E * Matrix.diagonal (fun i => 1 / D i i) * (E.transpose * E) * D * (E.transpose * E) := by simp only [Matrix.mul_assoc]
        _ = _ := by rw [hE]; simp only [Matrix.mul_one, Matrix.mul_assoc]
    rw [e1, e2, hxp, ← Matrix.mulVec_sub]
    congr 1
    funext i
    rw [Pi.sub_apply, Matrix.mulVec_diagonal, hz]
    have hpos : 0 < D i i := lt_of_lt_of_le hm (hdiag i)
    have hsplit : (D *ᵥ y) i = D i i * y i + ∑ j, (if i = j then 0 else D i j) * y j := by
      rw [Matrix.mulVec, dotProduct]
      have : ∀ j, D i j * y j = (if i = j then D i i * y i else 0) + (if i = j then 0 else D i j) * y j := by
        intro j
        by_cases hij : i = j
        · subst hij; simp
        · simp [hij]
      rw [Finset.sum_congr rfl fun j _ => this j, Finset.sum_add_distrib, Finset.sum_ite_eq, if_pos (Finset.mem_univ i)]
    rw [hsplit]
    field_simp
    ring
  rw [hv, orth_norm hE, hyy]
  have hzi : ∀ i, z i * z i ≤ (∑ j, if i = j then 0 else D i j ^ 2) / m ^ 2 * (y ⬝ᵥ y) := by
    intro i
    have hpos : 0 < D i i := lt_of_lt_of_le hm (hdiag i)
    have hc := cauchy_row (fun j => if i = j then 0 else D i j) y
    have hyd : y ⬝ᵥ y = ∑ j, y j ^ 2 := Finset.sum_congr rfl fun j _ => by ring
    have hoff : ∑ j, (if i = j then (0 : ℝ) else D i j) ^ 2 = ∑ j, if i = j then 0 else D i j ^ 2 := by
      apply Finset.sum_congr rfl
      intro j _
      split <;> simp
    rw [hoff, ← hyd] at hc
    have hinv : (1 / D i i) ^ 2 ≤ 1 / m ^ 2 := by
      rw [div_pow, one_pow]
      apply one_div_le_one_div_of_le (by positivity)
      exact pow_le_pow_left₀ hm.le (hdiag i) 2
    calc z i * z i = (1 / D i i) ^ 2 * (∑ j, (if i = j then 0 else D i j) * y j) ^ 2 := by rw [hz]; ring
      _ ≤ 1 / m ^ 2 * ((∑ j, if i = j then 0 else D i j ^ 2) * (y ⬝ᵥ y)) := mul_le_mul hinv hc (sq_nonneg _) (by positivity)
      _ = _ := by ring
  have hoffs : ∑ i, (∑ j, if i = j then 0 else D i j ^ 2) / m ^ 2 * (y ⬝ᵥ y) = offSq D / m ^ 2 * (y ⬝ᵥ y) := by
    rw [← Finset.sum_mul]
    congr 1
    unfold offSq
    simp only [div_eq_mul_inv]
    rw [← Finset.sum_mul]
  rw [← hoffs]
  exact Finset.sum_le_sum fun i _ => hzi i

end

end Isomesh
