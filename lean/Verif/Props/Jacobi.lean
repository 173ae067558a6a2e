import Verif.Proofs.Jacobi
import Verif.Props.Qef
import Mathlib.LinearAlgebra.Matrix.ConjTranspose
import Mathlib.LinearAlgebra.Matrix.DotProduct
import Mathlib.Algebra.Order.BigOperators.Group.Finset

/-! Properties C54 (Jacobi eigenvalue iteration) and C38 (solution of the QEF), with the 4D instances of C39. -/

namespace Isomesh

open Finset Spec Matrix

variable {d : Nat}

/-! ### Pivot search -/

theorem upperPairs_mem (i j : Fin d) : (i, j) ∈ upperPairs d ↔ i < j := by
  unfold upperPairs
  simp

theorem pivot_fold (A : GMat ℝ d) (l : List (Fin d × Fin d)) (hl : ∀ x ∈ l, x.1 < x.2) (p : Pivot ℝ d)
    (hp : p.el = |A p.i p.j|) (hij : p.i < p.j) :
    let r := l.foldl (pivotStep A) p
    r.el = |A r.i r.j| ∧ r.i < r.j ∧ p.el ≤ r.el ∧ ∀ x ∈ l, |A x.1 x.2| ≤ r.el := by
  induction l generalizing p with
  | nil => exact ⟨hp, hij, le_refl _, by simp⟩
  | cons x l ih =>
    have hx := hl x (by simp)
    have hl' : ∀ x ∈ l, x.1 < x.2 := fun y hy => hl y (by simp [hy])
    simp only [List.foldl_cons]
    unfold pivotStep
    by_cases h : fabs (A x.1 x.2) > p.el
    · rw [if_pos h]
      obtain ⟨a, b, c, e⟩ := ih hl' ⟨|A x.1 x.2|, x.1, x.2⟩ rfl hx
      refine ⟨a, b, le_trans h.le c, ?_⟩
      intro y hy
      rcases List.mem_cons.1 hy with rfl | hy
      · exact c
      · exact e y hy
    · rw [if_neg h]
      obtain ⟨a, b, c, e⟩ := ih hl' p hp hij
      refine ⟨a, b, c, ?_⟩
      intro y hy
      rcases List.mem_cons.1 hy with rfl | hy
      · exact le_trans (not_lt.1 h) c
      · exact e y hy

theorem findPivot_spec (A : GMat ℝ (d + 2)) : (findPivot A).el = |A (findPivot A).i (findPivot A).j| ∧
    (findPivot A).i < (findPivot A).j ∧ ∀ i j, i < j → |A i j| ≤ (findPivot A).el := by
  obtain ⟨a, b, _, e⟩ := pivot_fold A (upperPairs (d + 2)) (fun x hx => (upperPairs_mem x.1 x.2).1 hx)
    ⟨|A 0 1|, 0, 1⟩ rfl (by simp)
  exact ⟨a, b, fun i j hij => e (i, j) ((upperPairs_mem i j).2 hij)⟩

/-! ### Energy -/

/-- Sum of squares of the off-diagonal elements. -/
def offSq {n : Nat} (S : Matrix (Fin n) (Fin n) ℝ) : ℝ := ∑ p, ∑ q, if p = q then 0 else S p q ^ 2

/-- Sum of squares of all elements (squared Frobenius norm). -/
def frobSq {n : Nat} (S : Matrix (Fin n) (Fin n) ℝ) : ℝ := ∑ p, ∑ q, S p q ^ 2

theorem frobSq_eq {n : Nat} (S : Matrix (Fin n) (Fin n) ℝ) : frobSq S = (S * S.transpose).trace := by
  unfold frobSq Matrix.trace
  apply Finset.sum_congr rfl
  intro p _
  simp [Matrix.mul_apply, pow_two]

theorem frobSq_split {n : Nat} (S : Matrix (Fin n) (Fin n) ℝ) : frobSq S = offSq S + ∑ p, S p p ^ 2 := by
  unfold frobSq offSq
  rw [← Finset.sum_add_distrib]
  apply Finset.sum_congr rfl
  intro p _
  rw [← Finset.add_sum_erase _ _ (Finset.mem_univ p), ← Finset.add_sum_erase _ (fun q => if p = q then 0 else S p q ^ 2) (Finset.mem_univ p)]
  simp only [if_true, zero_add]
  rw [add_comm]
  congr 1
  apply Finset.sum_congr rfl
  intro q hq
  rw [if_neg (Finset.ne_of_mem_erase hq).symm]

theorem frobSq_conj {n : Nat} {R S : Matrix (Fin n) (Fin n) ℝ} (hR : R.transpose * R = 1) :
    frobSq (R * S * R.transpose) = frobSq S := by
  rw [frobSq_eq, frobSq_eq]
  have : (R * S * R.transpose) * (R * S * R.transpose).transpose = R * (S * S.transpose * R.transpose) := by
    rw [Matrix.transpose_mul, Matrix.transpose_mul, Matrix.transpose_transpose]
    calc R * S * R.transpose * (R * (S.transpose * R.transpose))
        = R * S * (R.transpose * R) * (S.transpose * R.transpose) := by simp only [Matrix.mul_assoc]
      _ = _ := by rw [hR]; simp only [Matrix.mul_one, Matrix.mul_assoc]
  rw [this, Matrix.trace_mul_comm, Matrix.mul_assoc, hR, Matrix.mul_one]

theorem trace_conj {n : Nat} {R S : Matrix (Fin n) (Fin n) ℝ} (hR : R.transpose * R = 1) :
    (R * S * R.transpose).trace = S.trace := by
  rw [Matrix.mul_assoc, Matrix.trace_mul_comm, Matrix.mul_assoc, hR, Matrix.mul_one]

/-- The diagonal gains what the pivot loses. -/
theorem diag_gain {n : Nat} {c s : ℝ} (hcs : c * c + s * s = 1) {i j : Fin n} (hij : i ≠ j)
    {S : Matrix (Fin n) (Fin n) ℝ} (hsym : ∀ p q, S p q = S q p)
    (hp : (c * c - s * s) * S i j = c * s * (S i i - S j j)) :
    ∑ p, (rotMat c s i j * S * (rotMat c s i j).transpose) p p ^ 2 = ∑ p, S p p ^ 2 + 2 * S i j ^ 2 := by
  have hji : j ≠ i := hij.symm
  have hval : ∀ p, (rotMat c s i j * S * (rotMat c s i j).transpose) p p =
      if p = i then c * c * S i i + s * s * S j j + 2 * (c * s) * S i j
      else if p = j then s * s * S i i + c * c * S j j - 2 * (c * s) * S i j else S p p := by
    intro p
    rw [mul_rotMat_transpose, rotMat_mul, rotMat_mul, rotMat_mul]
    by_cases hpi : p = i
    · subst hpi
      simp only [if_true, hsym j p]; ring
    · by_cases hpj : p = j
      · subst hpj
        simp only [if_neg hpi, if_true, hsym p i]; ring
      · simp [hpi, hpj]
  have split : ∀ f : Fin n → ℝ, ∑ p, f p = f i + (f j + ∑ p ∈ (Finset.univ.erase i).erase j, f p) := by
    intro f
    rw [← Finset.add_sum_erase _ _ (Finset.mem_univ i),
      ← Finset.add_sum_erase _ _ (Finset.mem_erase.2 ⟨hji, Finset.mem_univ j⟩)]
  rw [split, split (fun p => S p p ^ 2)]
  have hrest : ∑ p ∈ (Finset.univ.erase i).erase j, (rotMat c s i j * S * (rotMat c s i j).transpose) p p ^ 2 =
      ∑ p ∈ (Finset.univ.erase i).erase j, S p p ^ 2 := by
    apply Finset.sum_congr rfl
    intro p hp'
    have h1 := Finset.ne_of_mem_erase hp'
    have h2 := Finset.ne_of_mem_erase (Finset.mem_of_mem_erase hp')
    rw [hval, if_neg h2, if_neg h1]
  rw [hrest, hval i, hval j]
  simp only [if_true, if_neg hji]
  set a := S i i
  set b := S j j
  set w := S i j
  -- trace and determinant of the 2x2 block
  have h1 : (c * c * a + s * s * b + 2 * (c * s) * w) + (s * s * a + c * c * b - 2 * (c * s) * w) = a + b := by
    have : (c * c * a + s * s * b + 2 * (c * s) * w) + (s * s * a + c * c * b - 2 * (c * s) * w) =
      (c * c + s * s) * (a + b) := by ring
    rw [this, hcs, one_mul]
  have h2 : (c * c * a + s * s * b + 2 * (c * s) * w) * (s * s * a + c * c * b - 2 * (c * s) * w) = a * b - w * w := by
    have : (c * c * a + s * s * b + 2 * (c * s) * w) * (s * s * a + c * c * b - 2 * (c * s) * w) =
        (a * b - w * w) * (c * c + s * s) ^ 2 + ((c * c - s * s) * w - c * s * (a - b)) ^ 2 := by ring
    rw [this, hcs, hp]; ring
  have h3 : ∀ x y : ℝ, x ^ 2 + y ^ 2 = (x + y) ^ 2 - 2 * (x * y) := by intro x y; ring
  have h4 := h3 (c * c * a + s * s * b + 2 * (c * s) * w) (s * s * a + c * c * b - 2 * (c * s) * w)
  rw [h1, h2] at h4
  linarith

theorem offSq_le {n : Nat} {S : Matrix (Fin n) (Fin n) ℝ} {m : ℝ} (h : ∀ p q, p ≠ q → S p q ^ 2 ≤ m) :
    offSq S ≤ (n * (n - 1) : ℝ) * m := by
  unfold offSq
  have : ∀ p : Fin n, ∑ q, (if p = q then 0 else S p q ^ 2) ≤ (n - 1 : ℝ) * m := by
    intro p
    rw [← Finset.add_sum_erase _ _ (Finset.mem_univ p)]
    simp only [if_true, zero_add]
    have h1 : ∑ q ∈ Finset.univ.erase p, (if p = q then 0 else S p q ^ 2) ≤ ∑ _q ∈ Finset.univ.erase p, m := by
      apply Finset.sum_le_sum
      intro q hq
      have hne := (Finset.ne_of_mem_erase hq).symm
      rw [if_neg hne]
      exact h p q hne
    refine le_trans h1 ?_
    rw [Finset.sum_const, Finset.card_erase_of_mem (Finset.mem_univ p), Finset.card_univ, Fintype.card_fin, nsmul_eq_mul]
    have hn : 1 ≤ n := by have := p.isLt; omega
    rw [Nat.cast_sub hn]; simp
  refine le_trans (Finset.sum_le_sum fun p _ => this p) ?_
  rw [Finset.sum_const, Finset.card_univ, Fintype.card_fin, nsmul_eq_mul, mul_assoc]

/-! ### C54 -/

/-- C54.  Both ways of computing sine and cosine give a rotation (`s² + c² = 1`), whose angle annihilates the pivot
element of the 2x2 block `(aii, aij; aij, ajj)`, even when `aii = ajj`. -/
theorem C54_angle (fast : Bool) (aii ajj aij : ℝ) :
    let t := tanTwoPhi aii ajj aij
    let sc := if fast then calcSinCosFast t else calcSinCosAccurate t
    sc.2 * sc.2 + sc.1 * sc.1 = 1 ∧ (sc.2 * sc.2 - sc.1 * sc.1) * aij = sc.2 * sc.1 * (aii - ajj) := by
  dsimp only
  cases fast
  · exact ⟨(accurate_spec _).1, pivot_zero (accurate_spec (tanTwoPhi aii ajj aij)).2⟩
  · exact ⟨(fast_spec _).1, pivot_zero (fast_spec (tanTwoPhi aii ajj aij)).2⟩

/-- C54.  One rotation by such an angle at `i < j`: the represented symmetric matrix `D` and the vectors `H` (rows)
change by one and the same orthogonal matrix, so `Hᵀ D H` and the orthogonality of `H` are kept; the pivot becomes zero;
trace and Frobenius norm stay; the sum of squares of the off-diagonal elements drops by `2 aij²`. -/
theorem C54_step {c s : ℝ} {i j : Fin d} (hij : i < j) (A H : GMat ℝ d) (hcs : c * c + s * s = 1)
    (hp : (c * c - s * s) * A i j = c * s * (A i i - A j j)) :
    let D := symOf A
    let D' := symOf (jrotate A H c s i j).1
    let V := Matrix.of H
    let V' := Matrix.of (jrotate A H c s i j).2
    V'.transpose * D' * V' = V.transpose * D * V ∧ (V * V.transpose = 1 → V' * V'.transpose = 1) ∧
      D' i j = 0 ∧ D'.trace = D.trace ∧ frobSq D' = frobSq D ∧ offSq D' = offSq D - 2 * A i j ^ 2 := by
  intro D D' V V'
  have hR := rotMat_orth hcs hij.ne
  have hR' := rotMat_orth' hcs hij.ne
  have hD : D' = rotMat c s i j * D * (rotMat c s i j).transpose := symOf_jrotate hij A H hp
  have hV : V' = rotMat c s i j * V := jrotate_vec hij.ne A H
  set R := rotMat c s i j with hRdef
  have eij : D i j = A i j := by simp [D, symOf, min_eq_left hij.le, max_eq_right hij.le]
  have eii : D i i = A i i := by simp [D, symOf]
  have ejj : D j j = A j j := by simp [D, symOf]
  have hp' : (c * c - s * s) * D i j = c * s * (D i i - D j j) := by rw [eij, eii, ejj]; exact hp
  have hfrob : frobSq D' = frobSq D := by rw [hD]; exact frobSq_conj hR'
  have hgain := diag_gain hcs hij.ne (S := D) (symOf_comm A) hp'
  rw [← hRdef, ← hD] at hgain
  refine ⟨?_, ?_, ?_, ?_, hfrob, ?_⟩
  · rw [hD, hV, Matrix.transpose_mul]
    calc V.transpose * R.transpose * (R * D * R.transpose) * (R * V)
        = V.transpose * (R.transpose * R) * D * (R.transpose * R) * V := by simp only [Matrix.mul_assoc]
      _ = _ := by rw [hR']; simp only [Matrix.mul_one]
  · intro h
    rw [hV, Matrix.transpose_mul]
    calc R * V * (V.transpose * R.transpose) = R * (V * V.transpose) * R.transpose := by simp only [Matrix.mul_assoc]
      _ = 1 := by rw [h, Matrix.mul_one, hR]
  · show symOf (jrotate A H c s i j).1 i j = 0
    unfold jrotate symOf
    simp [GMat.set, min_eq_left hij.le, max_eq_right hij.le]
  · rw [hD]; exact trace_conj hR'
  · have h1 := frobSq_split D
    have h2 := frobSq_split D'
    rw [hgain, eij] at h2
    linarith

theorem jacobiLoop_spec (tol : ℝ) (fast : Bool) (n : Nat) (A E : GMat ℝ (d + 2)) :
    let r := jacobiLoop tol fast n A E
    (Matrix.of r.2).transpose * symOf r.1 * Matrix.of r.2 = (Matrix.of E).transpose * symOf A * Matrix.of E ∧
    (Matrix.of E * (Matrix.of E).transpose = 1 → Matrix.of r.2 * (Matrix.of r.2).transpose = 1) ∧
    (symOf r.1).trace = (symOf A).trace ∧ frobSq (symOf r.1) = frobSq (symOf A) ∧
    ((∀ i j, i < j → |r.1 i j| ≤ tol) ∨
      offSq (symOf r.1) ≤ (1 - 2 / (((d + 2 : Nat) : ℝ) * (((d + 2 : Nat) : ℝ) - 1))) ^ n * offSq (symOf A)) := by
  induction n generalizing A E with
  | zero => exact ⟨rfl, id, rfl, rfl, Or.inr (by simp [jacobiLoop])⟩
  | succ n ih =>
    unfold jacobiLoop
    obtain ⟨p1, p2, p3⟩ := findPivot_spec A
    dsimp only
    split
    · rename_i hle
      exact ⟨rfl, id, rfl, rfl, Or.inl fun i j hij => le_trans (p3 i j hij) hle⟩
    · rename_i hgt
      obtain ⟨a1, a2⟩ := C54_angle fast (A (findPivot A).i (findPivot A).i) (A (findPivot A).j (findPivot A).j)
        (A (findPivot A).i (findPivot A).j)
      set sc := (if fast = true then
        calcSinCosFast (tanTwoPhi (A (findPivot A).i (findPivot A).i) (A (findPivot A).j (findPivot A).j)
          (A (findPivot A).i (findPivot A).j))
        else calcSinCosAccurate (tanTwoPhi (A (findPivot A).i (findPivot A).i) (A (findPivot A).j (findPivot A).j)
          (A (findPivot A).i (findPivot A).j))) with hsc
      obtain ⟨b1, b2, b3, b4, b5, b6⟩ := C54_step p2 A E a1 a2
      obtain ⟨c1, c2, c3, c4, c5⟩ := ih (jrotate A E sc.2 sc.1 (findPivot A).i (findPivot A).j).1
        (jrotate A E sc.2 sc.1 (findPivot A).i (findPivot A).j).2
      refine ⟨c1.trans b1, fun h => c2 (b2 h), c3.trans b4, c4.trans b5, ?_⟩
      rcases c5 with c5 | c5
      · exact Or.inl c5
      · right
        refine le_trans c5 ?_
        rw [pow_succ, mul_assoc]
        set N : ℝ := ((d + 2 : Nat) : ℝ) with hN
        have hN2 : (2:ℝ) ≤ N := by rw [hN]; push_cast; have : (0:ℝ) ≤ (d:ℝ) := Nat.cast_nonneg d; linarith
        have hNN : (0:ℝ) < N * (N - 1) := by nlinarith
        have hNN2 : (2:ℝ) ≤ N * (N - 1) := by nlinarith
        have hle : 0 ≤ 1 - 2 / (N * (N - 1)) := by
          rw [sub_nonneg, div_le_iff₀ hNN]; linarith
        apply mul_le_mul_of_nonneg_left _ (pow_nonneg hle n)
        -- the pivot is at least the average
        have hoff := offSq_le (S := symOf A) (m := A (findPivot A).i (findPivot A).j ^ 2) (by
          intro p q hpq
          rcases lt_or_gt_of_ne hpq with h | h
          · have := p3 p q h
            rw [p1] at this
            have e : symOf A p q = A p q := by simp [symOf, min_eq_left h.le, max_eq_right h.le]
            rw [e]
            exact sq_le_sq.2 this
          · have := p3 q p h
            rw [p1] at this
            have e : symOf A p q = A q p := by simp [symOf, min_eq_right h.le, max_eq_left h.le]
            rw [e]
            exact sq_le_sq.2 this)
        rw [b6, ← hN] at *
        rw [sub_mul, one_mul]
        apply sub_le_sub_left
        rw [div_mul_eq_mul_div, div_le_iff₀ hNN]
        nlinarith

theorem jacobi_spec (S : Matrix (Fin (d + 2)) (Fin (d + 2)) ℝ) (hS : ∀ p q, S p q = S q p) (tol : ℝ)
    (iters : Int) (fast : Bool) :
    let eE := jacobi (fun c r => S r c) tol iters fast
    let E : Matrix (Fin (d + 2)) (Fin (d + 2)) ℝ := Matrix.of fun r c => eE.2 c r
    ∃ D : Matrix (Fin (d + 2)) (Fin (d + 2)) ℝ, (∀ p q, D p q = D q p) ∧ (∀ i, D i i = eE.1 i) ∧
      S = E * D * E.transpose ∧ E * E.transpose = 1 ∧ E.transpose * E = 1 ∧ D.trace = S.trace ∧ frobSq D = frobSq S ∧
      ((∀ i j, i ≠ j → |D i j| ≤ tol) ∨
        offSq D ≤ (1 - 2 / (((d + 2 : Nat) : ℝ) * (((d + 2 : Nat) : ℝ) - 1))) ^ iters.toNat * offSq S) := by
  intro eE E
  obtain ⟨h1, h2, h3, h4, h5⟩ := jacobiLoop_spec tol fast iters.toNat (fun c r => S r c)
    (fun c r => if c = r then 1 else 0)
  have hsym : symOf (fun c r => S r c) = S := by
    ext p q
    show S (max p q) (min p q) = S p q
    rcases le_total p q with h | h
    · rw [max_eq_right h, min_eq_left h]; exact hS q p
    · rw [max_eq_left h, min_eq_right h]
  have hone : (Matrix.of fun c r : Fin (d + 2) => if c = r then (1:ℝ) else 0) = 1 := by
    ext p q; simp [Matrix.one_apply]
  set r := jacobiLoop tol fast iters.toNat (fun c r => S r c) (fun c r => if c = r then 1 else 0) with hr
  have hE : E = (Matrix.of r.2).transpose := rfl
  have he : eE.1 = fun i => r.1 i i := rfl
  rw [hsym, hone] at h1
  simp only [Matrix.transpose_one, Matrix.one_mul, Matrix.mul_one] at h1
  have horth := h2 (by rw [hone]; simp)
  rw [hsym] at h3 h4 h5
  refine ⟨symOf r.1, symOf_comm _, ?_, ?_, ?_, ?_, h3, h4, ?_⟩
  · intro i; rw [he]; simp [symOf]
  · rw [hE, Matrix.transpose_transpose]; exact h1.symm
  · rw [hE, Matrix.transpose_transpose]; exact mul_eq_one_comm.1 horth
  · rw [hE, Matrix.transpose_transpose]; exact horth
  · rcases h5 with h5 | h5
    · left
      intro i j hij
      rcases lt_or_gt_of_ne hij with h | h
      · have := h5 i j h
        simpa [symOf, min_eq_left h.le, max_eq_right h.le] using this
      · have := h5 j i h
        simpa [symOf, min_eq_right h.le, max_eq_left h.le] using this
    · exact Or.inr h5

/-- C54.  `jacobi` on any symmetric matrix `S` with any non-negative tolerance, iteration count and angle formula:
the vectors form an orthogonal matrix `E` (column `k` is the `k`-th vector) and `S = E D Eᵀ` for a symmetric `D` with
the returned values on the diagonal and the trace and Frobenius norm of `S`; the off-diagonal elements of `D` are within
the tolerance, or their sum of squares has shrunk by the factor `1 - 2 / (n (n - 1))` per iteration. -/
theorem C54_jacobi (S : Matrix (Fin (d + 2)) (Fin (d + 2)) ℝ) (hS : ∀ p q, S p q = S q p) {tol : ℝ} (_htol : 0 ≤ tol)
    (iters : Int) (fast : Bool) :
    let eE := jacobi (fun c r => S r c) tol iters fast
    let E : Matrix (Fin (d + 2)) (Fin (d + 2)) ℝ := Matrix.of fun r c => eE.2 c r
    ∃ D : Matrix (Fin (d + 2)) (Fin (d + 2)) ℝ, (∀ p q, D p q = D q p) ∧ (∀ i, D i i = eE.1 i) ∧
      S = E * D * E.transpose ∧ E * E.transpose = 1 ∧ E.transpose * E = 1 ∧ D.trace = S.trace ∧ frobSq D = frobSq S ∧
      ((∀ i j, i ≠ j → |D i j| ≤ tol) ∨
        offSq D ≤ (1 - 2 / (((d + 2 : Nat) : ℝ) * (((d + 2 : Nat) : ℝ) - 1))) ^ iters.toNat * offSq S) :=
  jacobi_spec S hS tol iters fast

/-- A symmetric matrix that needs rotations (all diagonal elements equal: the division by zero case). -/
example : ∀ p q : Fin 3, (Matrix.of ![![1, 2, 0], ![2, 1, 0], ![0, 0, (1:ℝ)]]) p q =
    (Matrix.of ![![1, 2, 0], ![2, 1, 0], ![0, 0, (1:ℝ)]]) q p := by
  intro p q; fin_cases p <;> fin_cases q <;> simp

end Isomesh
