import Verif.Proofs.FlatQef
import Verif.Props.QefSolve
import Verif.Props.Jacobi

/-! Systems of planes orthogonal to the axes: the solver finds the common coordinates exactly. -/

namespace Isomesh

open Spec Finset

/-- Inner product of two columns over the rows `i ≤ r < used`. -/
noncomputable def colDot {d : Nat} (i used : Nat) (A : QMat ℝ d) (j k : Fin (d + 1)) : ℝ := ∑ r ∈ Finset.Ico i used, A j r * A k r

section
variable {d : Nat} {tiny : ℝ} {used : Nat} {A : QMat ℝ d} {i j k : Fin (d + 1)}

theorem hhNorm_colDot : hhNorm used A i = colDot i used A i i := hhNorm_eq used A i

theorem colDot_succ {n : Nat} (h : n < used) (A : QMat ℝ d) (j k : Fin (d + 1)) :
    colDot n used A j k = A j n * A k n + colDot (n + 1) used A j k := by
  unfold colDot
  rw [Finset.sum_eq_sum_Ico_succ_bot h]

theorem colDot_empty {n : Nat} (h : used ≤ n) (A : QMat ℝ d) (j k : Fin (d + 1)) : colDot n used A j k = 0 := by
  unfold colDot
  rw [Finset.Ico_eq_empty (by omega), Finset.sum_empty]

theorem hhStep_at (hj : i ≤ j) {r : Nat} (h1 : (i : Nat) ≤ r) (h2 : r < used) :
    hhStep tiny used A i j r = A j r - (∑ k' ∈ Finset.Ico (i : Nat) used, A j k' * hhVec tiny used A i k') * hhInvGamma tiny used A i *
      hhVec tiny used A i r := by
  simp only [hhStep]
  rw [if_pos ⟨hj, h1, h2⟩, sumL_real, sum_range'_eq]

/-- A reflection keeps the inner products. -/
theorem colDot_step (ht : 0 < tiny) (hj : i ≤ j) (hk : i ≤ k) :
    colDot i used (hhStep tiny used A i) j k = colDot i used A j k := by
  by_cases hi : (i : Nat) < used
  swap
  · rw [colDot_empty (by omega), colDot_empty (by omega)]
  have hg := hh_gamma ht (A := A) hi
  unfold colDot
  set v := hhVec tiny used A i with hv
  set g := hhInvGamma tiny used A i with hgd
  set sj := ∑ k' ∈ Finset.Ico (i : Nat) used, A j k' * v k' with hsj
  set sk := ∑ k' ∈ Finset.Ico (i : Nat) used, A k k' * v k' with hsk
  have hrow : ∀ r ∈ Finset.Ico (i : Nat) used, hhStep tiny used A i j r * hhStep tiny used A i k r =
      A j r * A k r - sk * g * (A j r * v r) - sj * g * (A k r * v r) + sj * sk * g * (g * (v r * v r)) := by
    intro r hr
    have hr := Finset.mem_Ico.1 hr
    rw [hhStep_at hj hr.1 hr.2, hhStep_at hk hr.1 hr.2]
    ring
  rw [Finset.sum_congr rfl hrow, Finset.sum_add_distrib, Finset.sum_sub_distrib, Finset.sum_sub_distrib, ← Finset.mul_sum, ← Finset.mul_sum,
    ← Finset.mul_sum, ← Finset.mul_sum, hg, ← hsj, ← hsk]
  ring

/-- A reflection of a column that is not zero. -/
theorem colDot_schur (ht : 0 < tiny) (hi : tiny ≤ colDot i used A i i) (hj : i ≤ j) (hk : i ≤ k) :
    colDot (i + 1) used (hhStep tiny used A i) j k =
      colDot i used A j k - colDot i used A i j * colDot i used A i k / colDot i used A i i ∧
    (colDot i used A i j = 0 → hhStep tiny used A i j i = 0) := by
  have hlt : (i : Nat) < used := by
    by_contra hcon
    rw [colDot_empty (by omega)] at hi
    linarith
  have hcol : ∀ r, (i : Nat) < r → r < used → hhStep tiny used A i i r = 0 := fun r h1 h2 =>
    hh_column ht (Or.inr (by rw [hhNorm_colDot]; exact hi)) h1 h2
  set B := hhStep tiny used A i with hB
  have hz : ∀ l, colDot (i + 1) used B i l = 0 := by
    intro l
    unfold colDot
    apply Finset.sum_eq_zero
    intro r hr
    have hr := Finset.mem_Ico.1 hr
    rw [hcol r (by omega) hr.2, zero_mul]
  have e1 : ∀ l, i ≤ l → colDot i used A i l = B i i * B l i := by
    intro l hl
    rw [← colDot_step ht (le_refl i) hl, ← hB, colDot_succ hlt, hz, add_zero]
  have hpos : 0 < colDot i used A i i := lt_of_lt_of_le ht hi
  have hne : B i i ≠ 0 := by
    intro h0
    rw [e1 i (le_refl i), h0] at hpos
    simp at hpos
  refine ⟨?_, ?_⟩
  · rw [← colDot_step ht hj hk, ← hB, colDot_succ hlt, e1 j hj, e1 k hk, e1 i (le_refl i)]
    field_simp
    ring
  · intro h0
    rw [e1 j hj] at h0
    exact (mul_eq_zero.1 h0).resolve_left hne

/-- A reflection of a zero column changes nothing below. -/
theorem hhStep_zero (ht : 0 < tiny) (hi : colDot i used A i i = 0) {r : Nat} (hr : r ≠ i) : hhStep tiny used A i j r = A j r := by
  have hn : hhNorm used A i < tiny := by rw [hhNorm_colDot, hi]; exact ht
  have hv : hhVec tiny used A i r = 0 := by simp [hhVec, hn, hr]
  simp only [hhStep, hv]
  split <;> simp

theorem colDot_congr {n : Nat} {A B : QMat ℝ d} (h : ∀ l r, n ≤ r → A l r = B l r) (j k : Fin (d + 1)) :
    colDot n used A j k = colDot n used B j k := by
  unfold colDot
  apply Finset.sum_congr rfl
  intro r hr
  have hr := Finset.mem_Ico.1 hr
  rw [h j r hr.1, h k r hr.1]

theorem colDot_zero (hi : colDot i used A i i = 0) {r : Nat} (h1 : (i : Nat) ≤ r) (h2 : r < used) : A i r = 0 :=
  hhNorm_zero (by rw [hhNorm_colDot, hi]) h1 h2

end

/-- The rows of the matrix are planes orthogonal to the axes; those of the axis `a` go through the coordinate `c a`. -/
structure AxisRows (used : Nat) (A : QMat ℝ 3) (ax : Nat → Fin 3) (s : Nat → ℝ) (c : Fin 3 → ℝ) : Prop where
  sign : ∀ k < used, s k = 1 ∨ s k = -1
  left : ∀ k < used, ∀ a : Fin 3, A a.castSucc k = if ax k = a then s k else 0
  right : ∀ k < used, A 3 k = s k * c (ax k)

section
variable {tiny : ℝ} {used : Nat} {A : QMat ℝ 3} {ax : Nat → Fin 3} {s : Nat → ℝ} {c : Fin 3 → ℝ}

theorem AxisRows.disjoint (h : AxisRows used A ax s c) {a b : Fin 3} (hab : a ≠ b) {k : Nat} (hk : k < used) :
    A a.castSucc k = 0 ∨ A b.castSucc k = 0 := by
  rw [h.left k hk, h.left k hk]
  by_cases h1 : ax k = a
  · right
    rw [if_neg (by rw [h1]; exact hab)]
  · left
    rw [if_neg h1]

theorem AxisRows.unit (h : AxisRows used A ax s c) (a : Fin 3) {k : Nat} (hk : k < used) :
    A a.castSucc k = 0 ∨ A a.castSucc k * A a.castSucc k = 1 := by
  rw [h.left k hk]
  split
  · right
    rcases h.sign k hk with e | e <;> rw [e] <;> norm_num
  · left; rfl

theorem AxisRows.orth (h : AxisRows used A ax s c) {a b : Fin 3} (hab : a ≠ b) (n : Nat) : colDot n used A a.castSucc b.castSucc = 0 := by
  unfold colDot
  apply Finset.sum_eq_zero
  intro r hr
  have hr := Finset.mem_Ico.1 hr
  rcases h.disjoint hab hr.2 with e | e <;> rw [e] <;> ring

theorem AxisRows.count (h : AxisRows used A ax s c) (a : Fin 3) (n : Nat) : ∃ m : ℕ, colDot n used A a.castSucc a.castSucc = m := by
  have : ∀ S : Finset Nat, (∀ k ∈ S, k < used) → ∃ m : ℕ, ∑ r ∈ S, A a.castSucc r * A a.castSucc r = m := by
    intro S
    induction S using Finset.induction_on with
    | empty => intro _; exact ⟨0, by simp⟩
    | insert r S hr ih =>
      intro hS
      obtain ⟨m, hm⟩ := ih fun k hk => hS k (Finset.mem_insert_of_mem hk)
      rw [Finset.sum_insert hr, hm]
      rcases h.unit a (hS r (Finset.mem_insert_self _ _)) with e | e
      · exact ⟨m, by rw [e]; ring⟩
      · exact ⟨m + 1, by rw [e]; push_cast; ring⟩
  exact this _ fun k hk => (Finset.mem_Ico.1 hk).2

theorem nat_clean {x : ℝ} (h : ∃ m : ℕ, x = m) (ht : tiny ≤ 1 / 2) : x = 0 ∨ tiny ≤ x := by
  obtain ⟨m, rfl⟩ := h
  rcases Nat.eq_zero_or_pos m with e | e
  · left; simp [e]
  · right
    have : (1 : ℝ) ≤ m := by exact_mod_cast e
    linarith

theorem nat_cases {x : ℝ} (h : ∃ m : ℕ, x = m) : x = 0 ∨ 1 ≤ x := by
  obtain ⟨m, rfl⟩ := h
  rcases Nat.eq_zero_or_pos m with e | e
  · left; simp [e]
  · right; exact_mod_cast e

theorem int_clean {x : ℝ} (h : ∃ m : ℤ, x = m) (h0 : 0 ≤ x) (ht : tiny ≤ 1 / 2) : x = 0 ∨ tiny ≤ x := by
  obtain ⟨m, rfl⟩ := h
  have hm : 0 ≤ m := by exact_mod_cast h0
  exact nat_clean ⟨m.toNat, by exact_mod_cast (Int.toNat_of_nonneg hm).symm⟩ ht

/-- The third column after the first reflection, if the second one is zero. -/
theorem third_clean (ht : 0 < tiny) (ht' : tiny ≤ 1 / 2) (h : AxisRows used A ax s c) (h0 : 1 ≤ colDot 0 used A 0 0) (h1 : 1 < used) :
    colDot 0 used A 2 2 - hhStep tiny used A 0 2 1 ^ 2 = 0 ∨ 0 ≤ colDot 0 used A 2 2 - hhStep tiny used A 0 2 1 ^ 2 →
    colDot 0 used A 2 2 - hhStep tiny used A 0 2 1 ^ 2 = 0 ∨ tiny ≤ colDot 0 used A 2 2 - hhStep tiny used A 0 2 1 ^ 2 := by
  intro hnn
  have hnn : 0 ≤ colDot 0 used A 2 2 - hhStep tiny used A 0 2 1 ^ 2 := by
    rcases hnn with e | e
    · rw [e]
    · exact e
  obtain ⟨m, hm⟩ := h.count 2 0
  have hm : colDot 0 used A 2 2 = m := hm
  have hN : ¬ hhNorm used A 0 < tiny := by
    rw [hhNorm_colDot]
    have : colDot ((0 : Fin 4) : Nat) used A 0 0 = colDot 0 used A 0 0 := rfl
    rw [this]; linarith
  have hvk : ∀ k, 0 < k → k < used → hhVec tiny used A 0 k = A 0 k * (1 / Real.sqrt (hhNorm used A 0)) := by
    intro k hk hk'
    simp only [hhVec, if_neg hN, elem_sqrt]
    rw [if_neg (by simp; omega), if_pos ⟨by simp, hk'⟩]
  have hd : ∀ k, k < used → A 0 k = 0 ∨ A 2 k = 0 := fun k hk => h.disjoint (a := 0) (b := 2) (by decide) hk
  have hsum : ∑ k' ∈ Finset.Ico ((0 : Fin 4) : Nat) used, A 2 k' * hhVec tiny used A 0 k' = A 2 0 * hhVec tiny used A 0 0 := by
    rw [Finset.sum_eq_single 0]
    · intro b hb hb0
      have hb := Finset.mem_Ico.1 hb
      rw [hvk b (by omega) hb.2]
      rcases hd b hb.2 with e | e <;> rw [e] <;> ring
    · intro hcon
      exact absurd (Finset.mem_Ico.2 ⟨by simp, by omega⟩) hcon
  have hval := hhStep_at (tiny := tiny) (A := A) (i := (0 : Fin 4)) (j := 2) (by decide) (r := 1) (by simp) h1
  rw [hsum] at hval
  have hu2 : A 2 1 = 0 ∨ A 2 1 * A 2 1 = 1 := h.unit 2 h1
  have hu20 : A 2 0 = 0 ∨ A 2 0 * A 2 0 = 1 := h.unit 2 (by omega)
  have hu01 : A 0 1 = 0 ∨ A 0 1 * A 0 1 = 1 := h.unit 0 h1
  have same : hhStep tiny used A 0 2 1 = A 2 1 → colDot 0 used A 2 2 - hhStep tiny used A 0 2 1 ^ 2 = 0 ∨
      tiny ≤ colDot 0 used A 2 2 - hhStep tiny used A 0 2 1 ^ 2 := by
    intro e
    refine int_clean ?_ hnn ht'
    rw [e, hm]
    rcases hu2 with e' | e'
    · exact ⟨m, by rw [e']; push_cast; ring⟩
    · exact ⟨m - 1, by rw [pow_two, e']; push_cast; ring⟩
  rcases hu20 with e20 | e20
  · apply same
    rw [hval, e20]; ring
  · have e00 : A 0 0 = 0 := by
      rcases hd 0 (by omega) with e | e
      · exact e
      · rw [e] at e20; norm_num at e20
    have hv0 : hhVec tiny used A 0 0 = 1 := by
      simp only [hhVec, if_neg hN]
      rw [if_pos (by simp)]
      have hv : (if ((0 : Fin 4) : Nat) ≤ 0 ∧ 0 < used then A 0 0 * (1 / Elem.sqrt (hhNorm used A 0)) else 0) = 0 := by
        rw [e00]; simp
      rw [hv]
      norm_num
    have hg : hhInvGamma tiny used A 0 = 1 := by
      unfold hhInvGamma
      rw [if_neg hN]
      have : hhVec tiny used A 0 ((0 : Fin 4) : Nat) = 1 := hv0
      rw [this, fabs_abs]; norm_num
    rw [hv0, hg, hvk 1 (by omega) h1] at hval
    rcases hu01 with e01 | e01
    · apply same
      rw [hval, e01]; ring
    · have e21 : A 2 1 = 0 := by
        rcases hd 1 h1 with e | e
        · rw [e] at e01; norm_num at e01
        · exact e
      obtain ⟨n, hn⟩ := h.count 0 0
      have hn : colDot 0 used A 0 0 = n := hn
      have hNn : hhNorm used A 0 = n := by rw [hhNorm_colDot]; exact hn
      have hn1 : (1 : ℝ) ≤ n := by rw [← hn]; exact h0
      have hsq : hhStep tiny used A 0 2 1 ^ 2 = 1 / n := by
        rw [hval, e21, hNn]
        have hr := Real.sq_sqrt (show (0 : ℝ) ≤ n by linarith)
        have : (0 - A 2 0 * 1 * 1 * (A 0 1 * (1 / Real.sqrt n))) ^ 2 = (A 2 0 * A 2 0) * (A 0 1 * A 0 1) * (1 / Real.sqrt n ^ 2) := by
          field_simp; ring
        rw [this, e20, e01, hr]; ring
      rw [hsq, hm] at hnn ⊢
      have hn' : 1 ≤ n := by exact_mod_cast hn1
      have hm1 : 1 ≤ m := by
        by_contra hcon
        have : m = 0 := by omega
        rw [this] at hnn
        have : (0 : ℝ) < 1 / n := by positivity
        norm_num at hnn
        linarith
      rcases Nat.lt_or_ge n 2 with hlt | hge
      · have : n = 1 := by omega
        subst this
        exact int_clean ⟨m - 1, by push_cast; ring⟩ (by exact_mod_cast hnn) ht'
      · right
        have h2 : (2 : ℝ) ≤ n := by exact_mod_cast hge
        have h3 : (1 : ℝ) / n ≤ 1 / 2 := by
          apply one_div_le_one_div_of_le (by norm_num) h2
        have h4 : (1 : ℝ) ≤ m := by exact_mod_cast hm1
        linarith

/-- Right sides stay consistent under a reflection. -/
theorem right_step (i : Fin 4) (hi : i ≠ 3) {A : QMat ℝ 3} {w : Fin 4 → ℝ} (hc : hhNorm used A i = 0 ∨ tiny ≤ hhNorm used A i) (ht : 0 < tiny)
    (hw : ∀ j < i, w j = 0)
    (h : ∀ r, (i : Nat) ≤ r → r < used → A 3 r = ∑ j, w j * A j r) :
    ∀ r, (i : Nat) + 1 ≤ r → r < used → hhStep tiny used A i 3 r = ∑ j, (if j ≤ i then 0 else w j) * hhStep tiny used A i j r := by
  intro r h1 h2
  have hi3 : i ≤ 3 := Fin.le_last i
  have full : hhStep tiny used A i 3 r = ∑ j, w j * hhStep tiny used A i j r := by
    have hcol : ∀ j, w j * hhStep tiny used A i j r = w j * A j r -
        (∑ k' ∈ Finset.Ico (i : Nat) used, w j * A j k' * hhVec tiny used A i k') * (hhInvGamma tiny used A i * hhVec tiny used A i r) := by
      intro j
      by_cases hj : i ≤ j
      · rw [hhStep_at hj (by omega) h2]
        have : ∑ k' ∈ Finset.Ico (i : Nat) used, w j * A j k' * hhVec tiny used A i k' =
            w j * ∑ k' ∈ Finset.Ico (i : Nat) used, A j k' * hhVec tiny used A i k' := by
          rw [Finset.mul_sum]
          exact Finset.sum_congr rfl fun _ _ => by ring
        rw [this]; ring
      · rw [hw j (not_le.1 hj)]; simp
    rw [Finset.sum_congr rfl fun j _ => hcol j, Finset.sum_sub_distrib, ← Finset.sum_mul, ← h r (by omega) h2, hhStep_at hi3 (by omega) h2,
      Finset.sum_comm]
    have : ∑ y ∈ Finset.Ico (i : Nat) used, ∑ x, w x * A x y * hhVec tiny used A i y =
        ∑ k' ∈ Finset.Ico (i : Nat) used, A 3 k' * hhVec tiny used A i k' := by
      apply Finset.sum_congr rfl
      intro y hy
      have hy := Finset.mem_Ico.1 hy
      rw [← Finset.sum_mul, ← h y hy.1 hy.2]
    rw [this]; ring
  rw [full]
  apply Finset.sum_congr rfl
  intro j _
  split
  · rename_i hj
    rcases lt_or_eq_of_le hj with hlt | rfl
    · rw [hw j hlt]
    · rw [hh_column ht hc (by omega) h2]; ring
  · rfl

/-- The triangularisation meets no tiny column. -/
theorem axis_clean (ht : 0 < tiny) (ht' : tiny ≤ 1 / 2) (h : AxisRows used A ax s c) :
    NoTiny tiny used (List.finRange 4) A := by
  have hl : List.finRange 4 = [0, 1, 2, 3] := by decide
  rw [hl]
  have c0 : hhNorm used A 0 = 0 ∨ tiny ≤ hhNorm used A 0 := by
    rw [hhNorm_colDot]; exact nat_clean (h.count 0 0) ht'
  have c1 : hhNorm used (hhStep tiny used A 0) 1 = 0 ∨ tiny ≤ hhNorm used (hhStep tiny used A 0) 1 := by
    rw [hhNorm_colDot]
    rcases nat_cases (h.count 0 0) with e | e
    · have := colDot_congr (used := used) (n := 1) (A := hhStep tiny used A 0) (B := A)
        (fun l r hr => hhStep_zero ht (i := 0) e (by simp; omega)) 1 1
      have hg : colDot ((1 : Fin 4) : Nat) used (hhStep tiny used A 0) 1 1 = colDot 1 used A 1 1 := this
      rw [hg]; exact nat_clean (h.count 1 1) ht'
    · have := (colDot_schur (tiny := tiny) (used := used) (A := A) (i := (0 : Fin 4)) (j := 1) (k := 1) ht
        (le_trans (by linarith) e) (by decide) (by decide)).1
      have ho : colDot ((0 : Fin 4) : Nat) used A 0 1 = 0 := h.orth (a := 0) (b := 1) (by decide) 0
      rw [ho] at this
      have hg : colDot ((1 : Fin 4) : Nat) used (hhStep tiny used A 0) 1 1 = colDot 0 used A 1 1 := by
        refine Eq.trans this ?_
        norm_num
      rw [hg]; exact nat_clean (h.count 1 0) ht'
  have c2 : hhNorm used (hhStep tiny used (hhStep tiny used A 0) 1) 2 = 0 ∨
      tiny ≤ hhNorm used (hhStep tiny used (hhStep tiny used A 0) 1) 2 := by
    have hnonneg := hhNorm_nonneg used (hhStep tiny used (hhStep tiny used A 0) 1) 2
    rw [hhNorm_colDot] at hnonneg ⊢
    rcases nat_cases (h.count 0 0) with e | e
    · have hB : ∀ l r, 1 ≤ r → hhStep tiny used A 0 l r = A l r := fun l r hr => hhStep_zero ht (i := 0) e (by simp; omega)
      have hcg := fun j k => colDot_congr (used := used) (n := 1) hB j k
      rcases nat_cases (h.count 1 1) with e1 | e1
      · have e1' : colDot ((1 : Fin 4) : Nat) used (hhStep tiny used A 0) 1 1 = 0 := (hcg 1 1).trans e1
        have hC : ∀ l r, 2 ≤ r → hhStep tiny used (hhStep tiny used A 0) 1 l r = A l r := by
          intro l r hr
          rw [hhStep_zero ht (i := 1) e1' (by simp; omega), hB l r (by omega)]
        have := colDot_congr (used := used) (n := 2) hC 2 2
        have hg : colDot ((2 : Fin 4) : Nat) used (hhStep tiny used (hhStep tiny used A 0) 1) 2 2 = colDot 2 used A 2 2 := this
        rw [hg]; exact nat_clean (h.count 2 2) ht'
      · have e1' : 1 ≤ colDot ((1 : Fin 4) : Nat) used (hhStep tiny used A 0) 1 1 := le_of_le_of_eq e1 (hcg 1 1).symm
        have := (colDot_schur (tiny := tiny) (used := used) (A := hhStep tiny used A 0) (i := (1 : Fin 4)) (j := 2) (k := 2) ht
          (le_trans (by linarith) e1') (by decide) (by decide)).1
        have ho : colDot ((1 : Fin 4) : Nat) used (hhStep tiny used A 0) 1 2 = 0 := (hcg 1 2).trans (h.orth (a := 1) (b := 2) (by decide) 1)
        rw [ho] at this
        have hg : colDot ((2 : Fin 4) : Nat) used (hhStep tiny used (hhStep tiny used A 0) 1) 2 2 = colDot 1 used A 2 2 := by
          refine Eq.trans this ?_
          rw [← hcg 2 2]
          norm_num
        rw [hg]; exact nat_clean (h.count 2 1) ht'
    · have hs := fun j k (hj : (0 : Fin 4) ≤ j) (hk : (0 : Fin 4) ≤ k) => colDot_schur (tiny := tiny) (used := used) (A := A) (i := (0 : Fin 4)) (j := j) (k := k) ht
        (le_trans (by linarith) e) hj hk
      have ho1 : colDot ((0 : Fin 4) : Nat) used A 0 1 = 0 := h.orth (a := 0) (b := 1) (by decide) 0
      have ho2 : colDot ((0 : Fin 4) : Nat) used A 0 2 = 0 := h.orth (a := 0) (b := 2) (by decide) 0
      have s11 : colDot 1 used (hhStep tiny used A 0) 1 1 = colDot 0 used A 1 1 := by
        refine Eq.trans (hs 1 1 (by decide) (by decide)).1 ?_
        rw [ho1]; norm_num
      have s12 : colDot 1 used (hhStep tiny used A 0) 1 2 = 0 := by
        refine Eq.trans (hs 1 2 (by decide) (by decide)).1 ?_
        rw [ho1]
        have : colDot ((0 : Fin 4) : Nat) used A 1 2 = 0 := h.orth (a := 1) (b := 2) (by decide) 0
        rw [this]; norm_num
      have s22 : colDot 1 used (hhStep tiny used A 0) 2 2 = colDot 0 used A 2 2 := by
        refine Eq.trans (hs 2 2 (by decide) (by decide)).1 ?_
        rw [ho2]; norm_num
      rcases nat_cases (h.count 1 0) with e1 | e1
      · have e1' : colDot ((1 : Fin 4) : Nat) used (hhStep tiny used A 0) 1 1 = 0 := s11.trans e1
        have hC : ∀ l r, 2 ≤ r → hhStep tiny used (hhStep tiny used A 0) 1 l r = hhStep tiny used A 0 l r := by
          intro l r hr
          rw [hhStep_zero ht (i := 1) e1' (by simp; omega)]
        have hg : colDot ((2 : Fin 4) : Nat) used (hhStep tiny used (hhStep tiny used A 0) 1) 2 2 = colDot 2 used (hhStep tiny used A 0) 2 2 :=
          colDot_congr (used := used) (n := 2) hC 2 2
        rw [hg] at hnonneg ⊢
        by_cases h1 : 1 < used
        · have hsp := colDot_succ h1 (hhStep tiny used A 0) 2 2
          have he : colDot 2 used (hhStep tiny used A 0) 2 2 = colDot 0 used A 2 2 - hhStep tiny used A 0 2 1 ^ 2 := by
            rw [← s22, hsp]; ring
          rw [he] at hnonneg ⊢
          exact third_clean ht ht' h e h1 (Or.inr hnonneg)
        · left
          exact colDot_empty (by omega) _ _ _
      · have e1' : 1 ≤ colDot ((1 : Fin 4) : Nat) used (hhStep tiny used A 0) 1 1 := le_of_le_of_eq e1 s11.symm
        have := (colDot_schur (tiny := tiny) (used := used) (A := hhStep tiny used A 0) (i := (1 : Fin 4)) (j := 2) (k := 2) ht
          (le_trans (by linarith) e1') (by decide) (by decide)).1
        have ho : colDot ((1 : Fin 4) : Nat) used (hhStep tiny used A 0) 1 2 = 0 := s12
        rw [ho] at this
        have hg : colDot ((2 : Fin 4) : Nat) used (hhStep tiny used (hhStep tiny used A 0) 1) 2 2 = colDot 0 used A 2 2 := by
          refine Eq.trans this ?_
          rw [← s22]
          norm_num
        rw [hg]; exact nat_clean (h.count 2 0) ht'
  have c3 : hhNorm used (hhStep tiny used (hhStep tiny used (hhStep tiny used A 0) 1) 2) 3 = 0 := by
    have w0 : ∀ r, ((0 : Fin 4) : Nat) ≤ r → r < used → A 3 r = ∑ j : Fin 4, (![c 0, c 1, c 2, 0] : Fin 4 → ℝ) j * A j r := by
      intro r _ hr
      rw [Fin.sum_univ_four]
      have l0 : A 0 r = if ax r = 0 then s r else 0 := h.left r hr 0
      have l1 : A 1 r = if ax r = 1 then s r else 0 := h.left r hr 1
      have l2 : A 2 r = if ax r = 2 then s r else 0 := h.left r hr 2
      rw [h.right r hr, l0, l1, l2]
      generalize ax r = b
      fin_cases b <;> simp <;> ring
    have w1 := right_step (tiny := tiny) (used := used) 0 (by decide) c0 ht (by intro j hj; exact absurd hj (Fin.not_lt_zero j)) w0
    have w2 := right_step (tiny := tiny) (used := used) 1 (by decide) c1 ht
      (by intro j hj; rw [if_pos]; omega) (fun r h1 h2 => w1 r h1 h2)
    have w3 := right_step (tiny := tiny) (used := used) 2 (by decide) c2 ht
      (by intro j hj; rw [if_pos]; omega) (fun r h1 h2 => w2 r h1 h2)
    rw [hhNorm_eq]
    apply Finset.sum_eq_zero
    intro r hr
    have hr := Finset.mem_Ico.1 hr
    rw [w3 r hr.1 hr.2]
    have : ∀ x : ℝ, x = 0 → x * x = 0 := by intro x hx; rw [hx]; ring
    apply this
    apply Finset.sum_eq_zero
    intro j _
    fin_cases j <;> simp
  exact ⟨c0, c1, c2, Or.inl c3, trivial⟩

end

/-- The eigenvalues of a diagonal matrix are found at once. -/
theorem jacobi_diag {d : Nat} {B : GMat ℝ (d + 2)} (h : ∀ i j, i ≠ j → B i j = 0) {tol : ℝ} (htol : 0 ≤ tol) (n : Int) (fast : Bool) :
    jacobi B tol n fast = (fun i => B i i, fun c r => if c = r then 1 else 0) := by
  unfold jacobi
  have : jacobiLoop tol fast n.toNat B (fun c r => if c = r then 1 else 0) = (B, fun c r => if c = r then 1 else 0) := by
    cases n.toNat with
    | zero => rfl
    | succ m =>
      have hs := findPivot_spec B
      unfold jacobiLoop
      rw [if_pos]
      rw [hs.1, h _ _ hs.2.1.ne, abs_zero]
      exact htol
  rw [this]

theorem form_colDot {d n n' : Nat} {A B : QMat ℝ d}
    (h : ∀ x, ∑ k ∈ Finset.range n, rowDot A x k ^ 2 = ∑ k ∈ Finset.range n', rowDot B x k ^ 2) (i j : Fin (d + 1)) :
    colDot 0 n A i j = colDot 0 n' B i j := by
  have key : ∀ (n : Nat) (A : QMat ℝ d), ∑ k ∈ Finset.range n, rowDot A (Pi.single i 1 + Pi.single j 1) k ^ 2 -
      ∑ k ∈ Finset.range n, rowDot A (Pi.single i 1 - Pi.single j 1) k ^ 2 = 4 * colDot 0 n A i j := by
    intro n A
    have e1 : ∀ k, rowDot A (Pi.single i 1 + Pi.single j 1) k = A i k + A j k := by
      intro k
      unfold rowDot
      simp [mul_add, Finset.sum_add_distrib, Pi.single_apply]
    have e2 : ∀ k, rowDot A (Pi.single i 1 - Pi.single j 1) k = A i k - A j k := by
      intro k
      unfold rowDot
      simp [mul_sub, Finset.sum_sub_distrib, Pi.single_apply]
    rw [← Finset.sum_sub_distrib]
    unfold colDot
    rw [Finset.mul_sum, ← Finset.range_eq_Ico]
    apply Finset.sum_congr rfl
    intro k _
    rw [e1, e2]; ring
  have := key n A
  rw [h, h, key n' B] at this
  linarith

/-- A solver with planes orthogonal to the axes: the coordinates of the planes are found exactly, the other coordinates are those of the
mass point. -/
theorem axis_solve {tiny : ℝ} {M : Nat} (ht : 0 < tiny) (ht' : tiny ≤ 1 / 2) {q q' : Qef ℝ 3} {x lo hi : VecN ℝ 3} (hq : QInv M q)
    {ax : Nat → Fin 3} {s : Nat → ℝ} {c : Fin 3 → ℝ} (h : AxisRows q.usedRows q.A ax s c)
    (hp : 0 < q.pinvTolerance) (hp' : q.pinvTolerance ≤ 1) (hj : 0 ≤ q.jacobiTolerance)
    (hs : q.solve M tiny lo hi = some (q', x)) :
    x = Qef.clampV (fun a => if ∃ k < q.usedRows, ax k = a then c a else massPoint q a) lo hi := by
  obtain ⟨q1, hc, hcnt, -, -, -, -, -, -, -, -, hx, -⟩ := solve_eq hs
  obtain ⟨-, hu, -, htri, hform, hq1⟩ := compress_spec ht hq (axis_clean ht ht' h) hc
  have hdot := form_colDot hform
  have hstep : ∀ (i : Fin 3) (j : Fin 4), colDot 0 4 q1.A i.castSucc j = ∑ k : Fin 3, q1.A i.castSucc k * q1.A j k := by
    intro i j
    unfold colDot
    rw [← Finset.range_eq_Ico, Finset.sum_range_succ, htri i.castSucc 3 (by simp) (by omega), zero_mul, add_zero,
      Fin.sum_univ_eq_sum_range (fun k => q1.A i.castSucc k * q1.A j k) 3]
  obtain ⟨n, hn⟩ : ∃ n : Fin 3 → ℝ, ∀ a, n a = colDot 0 q.usedRows q.A a.castSucc a.castSucc := ⟨_, fun _ => rfl⟩
  have hATA : q1.leftMat.transpose * q1.leftMat = Matrix.diagonal n := by
    ext i j
    rw [Matrix.mul_apply, Matrix.diagonal_apply]
    have : ∑ k, q1.leftMat.transpose i k * q1.leftMat k j = colDot 0 q.usedRows q.A i.castSucc j.castSucc := by
      rw [← hdot, hstep]; rfl
    rw [this]
    by_cases hij : i = j
    · subst hij; rw [if_pos rfl, hn]
    · rw [if_neg hij]; exact h.orth hij 0
  have hb : q1.leftMat.transpose.mulVec (fun r => q1.A (Fin.last 3) r) = fun a => n a * c a := by
    funext a
    have : q1.leftMat.transpose.mulVec (fun r => q1.A (Fin.last 3) r) a = colDot 0 q.usedRows q.A a.castSucc 3 := by
      rw [← hdot, hstep]; rfl
    rw [this, hn]
    unfold colDot
    rw [Finset.sum_mul]
    apply Finset.sum_congr rfl
    intro k hk
    have hk := (Finset.mem_Ico.1 hk).2
    rw [h.left k hk, h.right k hk]
    split
    · rename_i e; rw [e]; ring
    · ring
  have hn0 : ∀ a, (n a = 0 ∧ ¬ ∃ k < q.usedRows, ax k = a) ∨ (1 ≤ n a ∧ ∃ k < q.usedRows, ax k = a) := by
    intro a
    have hz : (∃ k < q.usedRows, ax k = a) → n a ≠ 0 := by
      rintro ⟨k, hk, e⟩ h0
      rw [hn] at h0
      unfold colDot at h0
      rw [Finset.sum_eq_zero_iff_of_nonneg (fun k _ => mul_self_nonneg _)] at h0
      have := h0 k (Finset.mem_Ico.2 ⟨by omega, hk⟩)
      rw [h.left k hk, if_pos e] at this
      rcases h.sign k hk with e' | e' <;> rw [e'] at this <;> norm_num at this
    have hz' : (¬ ∃ k < q.usedRows, ax k = a) → n a = 0 := by
      intro hno
      rw [hn]
      unfold colDot
      apply Finset.sum_eq_zero
      intro k hk
      have hk := (Finset.mem_Ico.1 hk).2
      rw [h.left k hk, if_neg fun e => hno ⟨k, hk, e⟩, zero_mul]
    by_cases hex : ∃ k < q.usedRows, ax k = a
    · right
      refine ⟨?_, hex⟩
      rcases nat_cases (h.count a 0) with e | e
      · exact absurd (by rw [hn]; exact e) (hz hex)
      · rw [hn]; exact e
    · left; exact ⟨hz' hex, hex⟩
  have hopt : q1.pinvTolerance = q.pinvTolerance ∧ q1.jacobiTolerance = q.jacobiTolerance ∧ q1.pointsSum = q.pointsSum ∧ q1.pointsCount = q.pointsCount := by
    rw [hq1]; exact ⟨rfl, rfl, rfl, rfl⟩
  rw [hx]
  congr 1
  rw [unclamped_real]
  dsimp only
  rw [hb, hATA, jacobi_diag (B := fun c r => Matrix.diagonal n r c) (by
    intro i j hij; rw [Matrix.diagonal_apply, if_neg (Ne.symm hij)]) (by rw [hopt.2.1]; exact hj)]
  dsimp only
  have hE : (Matrix.of fun r c : Fin 3 => if c = r then (1 : ℝ) else 0) = 1 := by
    ext i j
    rw [Matrix.one_apply]
    by_cases e : i = j
    · simp [e]
    · simp [e, Ne.symm e]
  rw [hE, Matrix.one_mul, Matrix.transpose_one, Matrix.mul_one]
  have hpd : Qef.pinvDiag q1.pinvTolerance (fun i => Matrix.diagonal n i i) =
      Matrix.diagonal (fun i => if |n i| ≥ q.pinvTolerance then 1 / n i else 0) := by
    ext r c
    simp [Qef.pinvDiag, Matrix.diagonal_apply, fabs_abs, hopt.1]
  rw [hpd]
  funext a
  simp only [Pi.add_apply, Matrix.mulVec_diagonal, Pi.sub_apply]
  have hmp : q1.pointsSum a / (q1.pointsCount : ℝ) = massPoint q a := by
    unfold massPoint; rw [hopt.2.2.1, hopt.2.2.2]
  rw [hmp]
  rcases hn0 a with ⟨e, e'⟩ | ⟨e, e'⟩
  · rw [if_neg e', e]
    simp [not_le.2 hp]
  · rw [if_pos e', if_pos (by rw [abs_of_nonneg (by linarith)]; linarith)]
    field_simp
    ring

/-- The solver holds exactly the planes of the list. -/
structure Loaded {α : Type} (q0 q : Qef ℝ 3) (l : List α) (pt n : α → VecN ℝ 3) : Prop where
  rows : ∀ j k, q.A j k = (l[k]?).elim 0 fun a => (Fin.snoc (α := fun _ => ℝ) (n a) (dotProduct (n a) (pt a)) : Fin 4 → ℝ) j
  used : q.usedRows = l.length
  sum : ∀ i, q.pointsSum i = (l.map fun a => pt a i).sum
  count : q.pointsCount = l.length
  pinv : q.pinvTolerance = q0.pinvTolerance
  jac : q.jacobiTolerance = q0.jacobiTolerance

theorem loaded_run {α : Type} {M bits : Nat} {tiny : ℝ} (hM : M < 2 ^ 32) (pt n : α → VecN ℝ 3) {q0 : Qef ℝ 3} (l : List α) :
    ∀ (pre : List α) (q q' : Qef ℝ 3), Loaded q0 q pre pt n → pre.length + l.length ≤ M →
      runOps M bits tiny q (l.map fun a => .addPlane (pt a) (n a)) = some q' → Loaded q0 q' (pre ++ l) pt n := by
  induction l with
  | nil => intro pre q q' h _ hr; cases hr; simpa using h
  | cons a l ih =>
    intro pre q q' h hlen hr
    rw [List.length_cons] at hlen
    rw [List.map_cons, runOps, List.foldlM_cons] at hr
    have ha : q.addPlane M tiny (pt a) (n a) = some { q with
        A := fun c r => if r = q.usedRows then (Fin.snoc (α := fun _ => ℝ) (n a) (dotProduct (n a) (pt a)) : Fin 4 → ℝ) c else q.A c r
        usedRows := q.usedRows + 1, pointsSum := q.pointsSum + pt a, pointsCount := u32 (q.pointsCount + 1) } := by
      unfold Qef.addPlane Qef.roomForPlane
      rw [if_neg (by rw [h.used]; omega)]
      simp only [Option.bind_eq_bind, Option.bind_some, dotN_real]
      rw [writeRow_some (by rw [h.used]; omega)]
      rfl
    simp only [QefOp.apply, ha, Option.bind_eq_bind, Option.bind_some] at hr
    have := ih (pre ++ [a]) _ q' ?_ (by simp; omega) hr
    · simpa using this
    · refine ⟨?_, ?_, ?_, ?_, h.pinv, h.jac⟩
      · intro j k
        dsimp only
        rw [h.used]
        rcases Nat.lt_trichotomy k pre.length with hk | hk | hk
        · rw [if_neg (by omega), h.rows, List.getElem?_append_left hk]
        · subst hk; simp
        · rw [if_neg (by omega), h.rows, List.getElem?_eq_none (by omega), List.getElem?_eq_none (by simp; omega)]
      · simp [h.used]
      · intro i
        simp [h.sum]
      · dsimp only
        rw [h.count, u32_small (by omega)]
        simp

/-- The point found for at most as many planes, orthogonal to the axes, as the solver has rows. -/
theorem axis_run {α : Type} {M bits : Nat} {tiny : ℝ} (ht : 0 < tiny) (ht' : tiny ≤ 1 / 2) (hM : M < 2 ^ 32) {pt n : α → VecN ℝ 3}
    {l : List α} {ax : α → Fin 3} {c : Fin 3 → ℝ} (hlen : l.length ≤ M)
    (hn : ∀ a ∈ l, ∃ s : ℝ, (s = 1 ∨ s = -1) ∧ ∀ i, n a i = if ax a = i then s else 0)
    (hc : ∀ a ∈ l, pt a (ax a) = c (ax a)) {q0 q1 q2 : Qef ℝ 3} (hp : 0 < q0.pinvTolerance) (hp' : q0.pinvTolerance ≤ 1)
    (hj : 0 ≤ q0.jacobiTolerance) (hr : runOps M bits tiny q0 (.reset :: l.map fun a => .addPlane (pt a) (n a)) = some q1)
    {lo hi x : VecN ℝ 3} (hs : q1.solve M tiny lo hi = some (q2, x)) :
    x = Qef.clampV (fun i => if ∃ a ∈ l, ax a = i then c i else (l.map fun a => pt a i).sum / l.length) lo hi := by
  rw [runOps, List.foldlM_cons] at hr
  simp only [QefOp.apply, Option.bind_eq_bind, Option.bind_some] at hr
  have hL := loaded_run (q0 := q0) hM pt n l [] q0.reset q1 ⟨fun j k => by simp [Qef.reset], rfl, fun i => by simp [Qef.reset], rfl, rfl, rfl⟩
    (by simpa using hlen) hr
  rw [List.nil_append] at hL
  have hinv : QInv M q1 := ⟨by rw [hL.used]; exact hlen, fun _ j k hk => by
    rw [hL.used] at hk
    rw [hL.rows, List.getElem?_eq_none hk]; rfl⟩
  choose! s hs1 hs2 using hn
  have hA : AxisRows q1.usedRows q1.A (fun k => (l[k]?).elim 0 ax) (fun k => (l[k]?).elim 0 s) c := by
    rw [hL.used]
    refine ⟨?_, ?_, ?_⟩ <;> intro k hk <;> rw [List.getElem?_eq_getElem hk] <;> have hm := List.getElem_mem hk
    · exact hs1 _ hm
    · intro a
      rw [hL.rows, List.getElem?_eq_getElem hk]
      simp only [Option.elim_some, Fin.snoc_castSucc]
      exact hs2 _ hm a
    · rw [hL.rows, List.getElem?_eq_getElem hk]
      simp only [Option.elim_some]
      have : (3 : Fin 4) = Fin.last 3 := rfl
      rw [this, Fin.snoc_last]
      unfold dotProduct
      rw [Finset.sum_eq_single (ax l[k])]
      · rw [hs2 _ hm, if_pos rfl, hc _ hm]
      · intro b _ hb
        rw [hs2 _ hm, if_neg (Ne.symm hb), zero_mul]
      · intro h; exact absurd (Finset.mem_univ _) h
  have := axis_solve ht ht' hinv hA (by rw [hL.pinv]; exact hp) (by rw [hL.pinv]; exact hp') (by rw [hL.jac]; exact hj) hs
  rw [this]
  congr 1
  funext i
  have hiff : (∃ k < q1.usedRows, (l[k]?).elim 0 ax = i) ↔ ∃ a ∈ l, ax a = i := by
    rw [hL.used]
    constructor
    · rintro ⟨k, hk, e⟩
      rw [List.getElem?_eq_getElem hk] at e
      exact ⟨l[k], List.getElem_mem hk, e⟩
    · rintro ⟨a, ha, e⟩
      obtain ⟨k, hk, rfl⟩ := List.getElem_of_mem ha
      exact ⟨k, hk, by rw [List.getElem?_eq_getElem hk]; exact e⟩
  have hmp : massPoint q1 i = (l.map fun a => pt a i).sum / l.length := by
    unfold massPoint; rw [hL.sum, hL.count]
  by_cases h1 : ∃ a ∈ l, ax a = i
  · rw [if_pos h1, if_pos (hiff.2 h1)]
  · rw [if_neg h1, if_neg fun h2 => h1 (hiff.1 h2), hmp]

end Isomesh
