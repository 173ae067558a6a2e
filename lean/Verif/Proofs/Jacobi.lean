import Verif.Proofs.QefReal
import Mathlib.LinearAlgebra.Matrix.NonsingularInverse
import Mathlib.LinearAlgebra.Matrix.Trace
import Mathlib.Tactic.FieldSimp
import Mathlib.Tactic.LinearCombination
import Mathlib.Tactic.NormNum

/-! Jacobi rotations. -/

namespace Isomesh

open Finset

variable {d : Nat}

/-- The symmetric matrix represented by the elements `A[i][j]`, `i ≤ j`. -/
def symOf (A : GMat ℝ d) : Matrix (Fin d) (Fin d) ℝ := Matrix.of fun p q => A (min p q) (max p q)

theorem symOf_comm (A : GMat ℝ d) (p q : Fin d) : symOf A p q = symOf A q p := by
  simp [symOf, min_comm, max_comm]

theorem minmax_iff (p q i k : Fin d) : (min p q = min i k ∧ max p q = max i k) ↔ (p = i ∧ q = k) ∨ (p = k ∧ q = i) := by
  simp only [Fin.ext_iff, Fin.coe_min, Fin.coe_max]
  omega

theorem symOf_set (A : GMat ℝ d) (i k : Fin d) (x : ℝ) (p q : Fin d) :
    symOf (A.set (min i k) (max i k) x) p q = if (p = i ∧ q = k) ∨ (p = k ∧ q = i) then x else symOf A p q := by
  simp only [symOf, Matrix.of_apply, GMat.set, minmax_iff]

theorem symOf_jacobiRotate (A : GMat ℝ d) {c s : ℝ} {i j k : Fin d} (hij : i ≠ j) (hki : k ≠ i) (hkj : k ≠ j)
    (p q : Fin d) : symOf (jacobiRotate c s i j A k) p q =
      if (p = j ∧ q = k) ∨ (p = k ∧ q = j) then -s * symOf A i k + c * symOf A j k
      else if (p = i ∧ q = k) ∨ (p = k ∧ q = i) then c * symOf A i k + s * symOf A j k
      else symOf A p q := by
  unfold jacobiRotate
  rw [symOf_set, symOf_set]
  rfl

/-- Effect of the `jacobiRotate` calls on the represented matrix. -/
theorem symOf_fold {c s : ℝ} {i j : Fin d} (hij : i ≠ j) (l : List (Fin d)) (hl : l.Nodup)
    (hk : ∀ k ∈ l, k ≠ i ∧ k ≠ j) (A : GMat ℝ d) (p q : Fin d) :
    symOf (l.foldl (jacobiRotate c s i j) A) p q =
      if p = i ∧ q ∈ l then c * symOf A i q + s * symOf A j q
      else if p = j ∧ q ∈ l then -s * symOf A i q + c * symOf A j q
      else if q = i ∧ p ∈ l then c * symOf A i p + s * symOf A j p
      else if q = j ∧ p ∈ l then -s * symOf A i p + c * symOf A j p
      else symOf A p q := by
  induction l generalizing A with
  | nil => simp
  | cons k l ih =>
    obtain ⟨hki, hkj⟩ := hk k (by simp)
    have hl' := List.nodup_cons.1 hl
    have hk' : ∀ k ∈ l, k ≠ i ∧ k ≠ j := fun x hx => hk x (by simp [hx])
    rw [List.foldl_cons, ih hl'.2 hk']
    have hil : i ∉ l := fun h => (hk' i h).1 rfl
    have hjl : j ∉ l := fun h => (hk' j h).2 rfl
    have hji : j ≠ i := hij.symm
    have hik : i ≠ k := hki.symm
    have hjk : j ≠ k := hkj.symm
    simp only [symOf_jacobiRotate A hij hki hkj, List.mem_cons]
    by_cases hpi : p = i
    · subst hpi
      by_cases hqk : q = k
      · subst hqk; simp [hl'.1, hij, hik, hki, hjk, hkj]
      · by_cases hql : q ∈ l
        · have := hk' q hql
          simp [hql, hqk, this.1, this.2, hij, hji]
        · simp [hql, hqk, hij, hil, hik]
    · by_cases hpj : p = j
      · subst hpj
        by_cases hqk : q = k
        · subst hqk; simp [hl'.1, hji, hki, hkj, hik, hjk]
        · by_cases hql : q ∈ l
          · have := hk' q hql
            simp [hql, hqk, this.1, this.2, hji, hij]
          · simp [hql, hqk, hji, hjl, hjk]
      · by_cases hpk : p = k
        · subst hpk
          by_cases hqi : q = i
          · subst hqi; simp [hki, hkj, hl'.1, hil, hij, hji]
          · by_cases hqj : q = j
            · subst hqj; simp [hki, hkj, hl'.1, hjl, hji]
            · simp [hki, hkj, hqi, hqj, hpi, hpj]
        · by_cases hpl : p ∈ l
          · by_cases hqi : q = i
            · subst hqi; simp [hpl, hpi, hpj, hpk, hil, hij]
            · by_cases hqj : q = j
              · subst hqj; simp [hpl, hpi, hpj, hpk, hjl, hji]
              · simp [hpi, hpj, hqi, hqj]
          · simp [hpi, hpj, hpk, hpl]

theorem fold_diag {c s : ℝ} {i j : Fin d} (l : List (Fin d)) (hk : ∀ k ∈ l, k ≠ i ∧ k ≠ j) (A : GMat ℝ d) (p : Fin d) :
    l.foldl (jacobiRotate c s i j) A p p = A p p := by
  induction l generalizing A with
  | nil => rfl
  | cons k l ih =>
    obtain ⟨hki, hkj⟩ := hk k (by simp)
    rw [List.foldl_cons, ih (fun x hx => hk x (by simp [hx]))]
    have h1 : ∀ a : Fin d, k ≠ a → ¬ (p = min a k ∧ p = max a k) := by
      rintro a hka ⟨h1, h2⟩
      rcases le_total a k with h | h
      · rw [min_eq_left h] at h1; rw [max_eq_right h] at h2; exact hka (h2.symm.trans h1)
      · rw [min_eq_right h] at h1; rw [max_eq_left h] at h2; exact hka (h1.symm.trans h2)
    unfold jacobiRotate GMat.set
    rw [if_neg (h1 j hkj), if_neg (h1 i hki)]

/-- Plane rotation matrix. -/
def rotMat (c s : ℝ) (i j : Fin d) : Matrix (Fin d) (Fin d) ℝ := Matrix.of fun p k =>
  if p = i then c * (if k = i then 1 else 0) + s * (if k = j then 1 else 0)
  else if p = j then -s * (if k = i then 1 else 0) + c * (if k = j then 1 else 0)
  else if k = p then 1 else 0

theorem rotMat_mul (c s : ℝ) (i j : Fin d) (M : Matrix (Fin d) (Fin d) ℝ) (p q : Fin d) :
    (rotMat c s i j * M) p q = if p = i then c * M i q + s * M j q else if p = j then -s * M i q + c * M j q else M p q := by
  rw [Matrix.mul_apply]
  unfold rotMat
  simp only [Matrix.of_apply]
  by_cases hpi : p = i
  · simp only [if_pos hpi, add_mul, Finset.sum_add_distrib, mul_assoc, ite_mul, one_mul, zero_mul, ← Finset.mul_sum]
    simp
  · by_cases hpj : p = j
    · simp only [if_neg hpi, if_pos hpj, add_mul, Finset.sum_add_distrib, mul_assoc, ite_mul, one_mul, zero_mul,
        ← Finset.mul_sum]
      simp
    · simp [hpi, hpj]

theorem mul_rotMat_transpose (c s : ℝ) (i j : Fin d) (M : Matrix (Fin d) (Fin d) ℝ) (p q : Fin d) :
    (M * (rotMat c s i j).transpose) p q =
      if q = i then c * M p i + s * M p j else if q = j then -s * M p i + c * M p j else M p q := by
  have : M * (rotMat c s i j).transpose = (rotMat c s i j * M.transpose).transpose := by
    rw [Matrix.transpose_mul, Matrix.transpose_transpose]
  rw [this, Matrix.transpose_apply, rotMat_mul]
  simp

theorem rotMat_orth {c s : ℝ} (hcs : c * c + s * s = 1) {i j : Fin d} (hij : i ≠ j) :
    rotMat c s i j * (rotMat c s i j).transpose = 1 := by
  ext p q
  rw [rotMat_mul]
  simp only [Matrix.transpose_apply]
  have hji : j ≠ i := hij.symm
  by_cases hpi : p = i
  · subst hpi
    by_cases hqp : q = p
    · subst hqp; simp [rotMat, hij, hij.symm]; linarith
    · by_cases hqj : q = j
      · subst hqj; simp [rotMat, hij, hij.symm]; ring
      · have h1 : p ≠ q := fun h => hqp h.symm
        have h2 : j ≠ q := fun h => hqj h.symm
        simp [rotMat, hqp, hqj, h1, h2]
  · by_cases hpj : p = j
    · subst hpj
      by_cases hqi : q = i
      · subst hqi; simp [rotMat, hij, hji]; ring
      · by_cases hqp : q = p
        · subst hqp; simp [rotMat, hij, hji]; linarith
        · have h1 : p ≠ q := fun h => hqp h.symm
          have h2 : i ≠ q := fun h => hqi h.symm
          simp [rotMat, hqi, hqp, h1, h2, hji]
    · by_cases hqi : q = i
      · subst hqi; simp [rotMat, hpi, hpj]
      · by_cases hqj : q = j
        · subst hqj; simp [rotMat, hpi, hpj, hji]
        · simp [rotMat, hpi, hpj, hqi, hqj, Matrix.one_apply]

theorem rotMat_orth' {c s : ℝ} (hcs : c * c + s * s = 1) {i j : Fin d} (hij : i ≠ j) :
    (rotMat c s i j).transpose * rotMat c s i j = 1 :=
  mul_eq_one_comm.1 (rotMat_orth hcs hij)

/-- The represented matrix after `rotate` is the conjugate by the rotation if the angle zeroes the pivot. -/
theorem symOf_jrotate {c s : ℝ} {i j : Fin d} (hij : i < j) (A H : GMat ℝ d)
    (hp : (c * c - s * s) * A i j = c * s * (A i i - A j j)) :
    symOf (jrotate A H c s i j).1 = rotMat c s i j * symOf A * (rotMat c s i j).transpose := by
  have hne : i ≠ j := hij.ne
  have hne' : j ≠ i := hne.symm
  set l := (List.finRange d).filter fun k => k ≠ i ∧ k ≠ j with hl
  have hlm : ∀ k, k ∈ l ↔ k ≠ i ∧ k ≠ j := by intro k; simp [hl]
  have hnd : l.Nodup := (List.nodup_finRange d).filter _
  set B := l.foldl (jacobiRotate c s i j) A with hB
  have hBs : ∀ p q, symOf B p q = _ := fun p q => symOf_fold hne l hnd (fun k hk => (hlm k).1 hk) A p q
  have hBd : ∀ p, B p p = A p p := fun p => fold_diag l (fun k hk => (hlm k).1 hk) A p
  have hBij : B i j = A i j := by
    have := hBs i j
    simp only [hlm] at this
    simp [hne] at this
    simpa [symOf, min_eq_left hij.le, max_eq_right hij.le] using this
  have hA' : (jrotate A H c s i j).1 = ((B.set (min i i) (max i i) (c * c * B i i + s * s * B j j + c * s * (B i j + B i j))).set
      (min j j) (max j j) (s * s * B i i + c * c * B j j - c * s * (B i j + B i j))).set (min i j) (max i j) 0 := by
    simp only [min_self, max_self, min_eq_left hij.le, max_eq_right hij.le]
    rfl
  ext p q
  rw [hA', symOf_set, symOf_set, symOf_set, mul_rotMat_transpose, rotMat_mul, rotMat_mul, rotMat_mul, hBs]
  simp only [hlm, hBd, hBij]
  have e1 : symOf A i i = A i i := by simp [symOf]
  have e2 : symOf A j j = A j j := by simp [symOf]
  have e3 : symOf A i j = A i j := by simp [symOf, min_eq_left hij.le, max_eq_right hij.le]
  have e4 : symOf A j i = A i j := by rw [symOf_comm]; exact e3
  by_cases hpi : p = i
  · subst hpi
    by_cases hqp : q = p
    · subst hqp; simp [hne, e1, e2, e3, e4]; ring
    · by_cases hqj : q = j
      · subst hqj
        simp [hne, hne', e1, e2, e3, e4]
        first | linear_combination hp | linear_combination -hp
      · simp [hne, hqp, hqj]
  · by_cases hpj : p = j
    · subst hpj
      by_cases hqi : q = i
      · subst hqi
        simp [hne, hne', e1, e2, e3, e4]
        first | linear_combination hp | linear_combination -hp
      · by_cases hqp : q = p
        · subst hqp; simp [hne', e1, e2, e3, e4]; ring
        · simp [hne', hqi, hqp]
    · by_cases hqi : q = i
      · subst hqi; simp [hpi, hpj, symOf_comm A p]
      · by_cases hqj : q = j
        · subst hqj; simp [hpi, hpj, hne', symOf_comm A p]
        · simp [hpi, hpj, hqi, hqj]

/-- The vectors after `rotate`. -/
theorem jrotate_vec {c s : ℝ} {i j : Fin d} (hij : i ≠ j) (A H : GMat ℝ d) :
    Matrix.of (jrotate A H c s i j).2 = rotMat c s i j * Matrix.of H := by
  have key : ∀ (l : List (Fin d)) (H : GMat ℝ d), l.Nodup → ∀ p q,
      l.foldl (rotateCol c s i j) H p q = if q ∈ l then
        (if p = i then c * H i q + s * H j q else if p = j then -s * H i q + c * H j q else H p q) else H p q := by
    intro l
    induction l with
    | nil => intro H _ p q; simp
    | cons k l ih =>
      intro H hl p q
      have hl' := List.nodup_cons.1 hl
      rw [List.foldl_cons, ih _ hl'.2]
      have hstep : ∀ p q, rotateCol c s i j H k p q = if q = k then
          (if p = i then c * H i q + s * H j q else if p = j then -s * H i q + c * H j q else H p q) else H p q := by
        intro p q
        unfold rotateCol GMat.set
        by_cases hq : q = k
        · subst hq
          by_cases hpi : p = i
          · subst hpi; simp [hij]
          · by_cases hpj : p = j
            · subst hpj; simp [hij.symm]
            · simp [hpi, hpj]
        · simp [hq]
      simp only [hstep, List.mem_cons]
      by_cases hq : q = k
      · subst hq; simp [hl'.1]
      · simp [hq]
  ext p q
  rw [rotMat_mul]
  show (List.finRange d).foldl (rotateCol c s i j) H p q = _
  rw [key _ H (List.nodup_finRange d)]
  simp

/-! ### Angles -/

theorem fast_spec (t : TanVal ℝ) : (calcSinCosFast t).2 * (calcSinCosFast t).2 + (calcSinCosFast t).1 * (calcSinCosFast t).1 = 1 ∧
    match t with
    | .fin x => 2 * ((calcSinCosFast t).2 * (calcSinCosFast t).1) =
        x * ((calcSinCosFast t).2 * (calcSinCosFast t).2 - (calcSinCosFast t).1 * (calcSinCosFast t).1)
    | .inf _ => (calcSinCosFast t).2 * (calcSinCosFast t).2 - (calcSinCosFast t).1 * (calcSinCosFast t).1 = 0 := by
  cases t with
  | fin x =>
    set r := Real.sqrt (1 * 1 + x * x) with hr
    have hpos : (0:ℝ) < 1 * 1 + x * x := by nlinarith [mul_self_nonneg x]
    have hrpos : 0 < r := Real.sqrt_pos.2 hpos
    have hrr : r * r = 1 + x * x := by rw [hr, Real.mul_self_sqrt hpos.le]; ring
    have hr1 : 1 ≤ r := by nlinarith [mul_self_nonneg x]
    set inv : ℝ := 0.5 / r with hinv
    have hi0 : 0 ≤ inv := by positivity
    have hi1 : inv ≤ 0.5 := by rw [hinv, div_le_iff₀ hrpos]; nlinarith
    have hc : Real.sqrt (0.5 + inv) * Real.sqrt (0.5 + inv) = 0.5 + inv := Real.mul_self_sqrt (by linarith)
    have hs : Real.sqrt (0.5 - inv) * Real.sqrt (0.5 - inv) = 0.5 - inv := Real.mul_self_sqrt (by linarith)
    have hcs : Real.sqrt (0.5 + inv) * Real.sqrt (0.5 - inv) = |x| * inv := by
      rw [← Real.sqrt_mul (by linarith)]
      have : (0.5 + inv) * (0.5 - inv) = (|x| * inv) * (|x| * inv) := by
        have h1 : inv * r = 0.5 := by rw [hinv]; field_simp
        have h2 : |x| * |x| = r * r - 1 := by rw [abs_mul_abs_self]; linarith
        have : (|x| * inv) * (|x| * inv) = (|x| * |x|) * (inv * inv) := by ring
        rw [this, h2]
        have : (r * r - 1) * (inv * inv) = (inv * r) * (inv * r) - inv * inv := by ring
        rw [this, h1]; ring
      rw [this, Real.sqrt_mul_self (by positivity)]
    have e1 : (calcSinCosFast (.fin x)).2 = Real.sqrt (0.5 + inv) := rfl
    have e2 : (calcSinCosFast (.fin x)).1 = if x < 0 then -Real.sqrt (0.5 - inv) else Real.sqrt (0.5 - inv) := rfl
    rw [e1, e2]
    by_cases hx : x < 0
    · rw [if_pos hx]
      rw [abs_of_neg hx] at hcs
      constructor
      · nlinarith
      · dsimp only
        have : 2 * (√(0.5 + inv) * -√(0.5 - inv)) = -2 * (√(0.5 + inv) * √(0.5 - inv)) := by ring
        rw [this, hcs, hc]
        have : -√(0.5 - inv) * -√(0.5 - inv) = √(0.5 - inv) * √(0.5 - inv) := by ring
        rw [this, hs]; ring
    · rw [if_neg hx]
      rw [abs_of_nonneg (not_lt.1 hx)] at hcs
      constructor
      · nlinarith
      · dsimp only
        rw [hcs, hc, hs]; ring
  | inf b =>
    have hs : Real.sqrt (0.5 - 0) * Real.sqrt (0.5 - 0) = 0.5 := by
      rw [sub_zero]; exact Real.mul_self_sqrt (by norm_num)
    have hc : Real.sqrt (0.5 + 0) * Real.sqrt (0.5 + 0) = 0.5 := by
      rw [add_zero]; exact Real.mul_self_sqrt (by norm_num)
    have e1 : (calcSinCosFast (.inf b)).2 = Real.sqrt (0.5 + 0) := rfl
    have e2 : (calcSinCosFast (.inf b)).1 = if b then Real.sqrt (0.5 - 0) else -Real.sqrt (0.5 - 0) := rfl
    rw [e1, e2]
    cases b
    · simp only [Bool.false_eq_true, if_false]
      constructor
      · linarith
      · linarith
    · simp only [if_true]
      constructor
      · linarith
      · linarith

theorem accurate_spec (t : TanVal ℝ) :
    (calcSinCosAccurate t).2 * (calcSinCosAccurate t).2 + (calcSinCosAccurate t).1 * (calcSinCosAccurate t).1 = 1 ∧
    match t with
    | .fin x => 2 * ((calcSinCosAccurate t).2 * (calcSinCosAccurate t).1) =
        x * ((calcSinCosAccurate t).2 * (calcSinCosAccurate t).2 - (calcSinCosAccurate t).1 * (calcSinCosAccurate t).1)
    | .inf _ => (calcSinCosAccurate t).2 * (calcSinCosAccurate t).2 -
        (calcSinCosAccurate t).1 * (calcSinCosAccurate t).1 = 0 := by
  have h2 : ∀ y : ℝ, 2 * (0.5 * y) = y := by intro y; ring
  have hcos : ∀ y : ℝ, Real.cos (0.5 * y) * Real.cos (0.5 * y) - Real.sin (0.5 * y) * Real.sin (0.5 * y) = Real.cos y := by
    intro y
    have := Real.cos_two_mul' (0.5 * y)
    rw [h2] at this
    rw [this]; ring
  have hsin : ∀ y : ℝ, 2 * (Real.cos (0.5 * y) * Real.sin (0.5 * y)) = Real.sin y := by
    intro y
    have := Real.sin_two_mul (0.5 * y)
    rw [h2] at this
    rw [this]; ring
  have hone : ∀ y : ℝ, Real.cos y * Real.cos y + Real.sin y * Real.sin y = 1 := by
    intro y
    have := Real.cos_sq_add_sin_sq y
    nlinarith
  cases t with
  | fin x =>
    refine ⟨hone _, ?_⟩
    show 2 * (Real.cos (0.5 * Real.arctan x) * Real.sin (0.5 * Real.arctan x)) =
      x * (Real.cos (0.5 * Real.arctan x) * Real.cos (0.5 * Real.arctan x) -
        Real.sin (0.5 * Real.arctan x) * Real.sin (0.5 * Real.arctan x))
    rw [hcos, hsin]
    have ht := Real.tan_arctan x
    have hc := Real.cos_arctan_pos x
    rw [Real.tan_eq_sin_div_cos, div_eq_iff hc.ne'] at ht
    exact ht
  | inf b =>
    refine ⟨hone _, ?_⟩
    cases b
    · show Real.cos (0.5 * -(Real.pi / 2)) * Real.cos (0.5 * -(Real.pi / 2)) -
        Real.sin (0.5 * -(Real.pi / 2)) * Real.sin (0.5 * -(Real.pi / 2)) = 0
      rw [hcos, Real.cos_neg, Real.cos_pi_div_two]
    · show Real.cos (0.5 * (Real.pi / 2)) * Real.cos (0.5 * (Real.pi / 2)) -
        Real.sin (0.5 * (Real.pi / 2)) * Real.sin (0.5 * (Real.pi / 2)) = 0
      rw [hcos, Real.cos_pi_div_two]

/-- The angle zeroes the pivot. -/
theorem pivot_zero {aii ajj aij c s : ℝ}
    (h : match tanTwoPhi aii ajj aij with
      | .fin x => 2 * (c * s) = x * (c * c - s * s)
      | .inf _ => c * c - s * s = 0) : (c * c - s * s) * aij = c * s * (aii - ajj) := by
  unfold tanTwoPhi at h
  by_cases h0 : aii - ajj = 0
  · rw [if_pos h0] at h
    rw [h0, h]; ring
  · rw [if_neg h0] at h
    dsimp only at h
    have h1 : (aij + aij) / (aii - ajj) * (c * c - s * s) * (aii - ajj) = (aij + aij) * (c * c - s * s) := by
      field_simp
    rw [← h] at h1
    linarith

end Isomesh
