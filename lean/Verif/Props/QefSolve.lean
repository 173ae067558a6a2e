import Verif.Props.Jacobi

/-! Property C38 (solution of the QEF), with the 4D instance of C39. -/

namespace Isomesh

open Finset Spec Matrix

variable {d : Nat}

/-! ### Least squares -/

section
variable {n : Nat}

theorem dot_self_nonneg (v : VecN ℝ n) : 0 ≤ v ⬝ᵥ v := Finset.sum_nonneg fun i _ => mul_self_nonneg (v i)

theorem dot_self_zero {v : VecN ℝ n} (h : v ⬝ᵥ v = 0) : v = 0 := by
  funext i
  have := (Finset.sum_eq_zero_iff_of_nonneg fun i _ => mul_self_nonneg (v i)).1 h i (Finset.mem_univ i)
  exact mul_self_eq_zero.1 this

theorem dot_mulVec_left (M : Matrix (Fin n) (Fin n) ℝ) (u v : VecN ℝ n) : (M *ᵥ u) ⬝ᵥ v = u ⬝ᵥ (M.transpose *ᵥ v) := by
  rw [Matrix.dotProduct_mulVec, Matrix.vecMul_transpose]

theorem mul_zero_of_gram {M : Matrix (Fin n) (Fin n) ℝ} (h : M.transpose * M = 0) : M = 0 := by
  ext i j
  have hj : (M.transpose * M) j j = 0 := by rw [h]; rfl
  rw [Matrix.mul_apply] at hj
  have := (Finset.sum_eq_zero_iff_of_nonneg (fun k _ => by
    show 0 ≤ M.transpose j k * M k j
    exact mul_self_nonneg (M k j))).1 hj i (Finset.mem_univ i)
  exact mul_self_eq_zero.1 this

/-- Pseudo-inverse solution: normal equations, and closeness to `p`. -/
theorem pinv_solution {M E : Matrix (Fin n) (Fin n) ℝ} {e σ : VecN ℝ n} (hE : E.transpose * E = 1)
    (hM : M.transpose * M = E * Matrix.diagonal e * E.transpose) (hσ : ∀ i, σ i = if e i = 0 then 0 else 1 / e i)
    (b p : VecN ℝ n) :
    let x := (E * Matrix.diagonal σ * E.transpose) *ᵥ (M.transpose *ᵥ b - (M.transpose * M) *ᵥ p) + p
    (∀ y, (M *ᵥ x - b) ⬝ᵥ (M *ᵥ x - b) ≤ (M *ᵥ y - b) ⬝ᵥ (M *ᵥ y - b)) ∧
    (∀ y, (M *ᵥ y - b) ⬝ᵥ (M *ᵥ y - b) = (M *ᵥ x - b) ⬝ᵥ (M *ᵥ x - b) → (x - p) ⬝ᵥ (x - p) ≤ (y - p) ⬝ᵥ (y - p)) := by
  intro x
  have hE' : E * E.transpose = 1 := mul_eq_one_comm.1 hE
  have hconj : ∀ a c : VecN ℝ n, (E * diagonal a * E.transpose) * (E * diagonal c * E.transpose) =
      E * diagonal (fun i => a i * c i) * E.transpose := by
    intro a c
    calc E * diagonal a * E.transpose * (E * diagonal c * E.transpose)
        = E * diagonal a * (E.transpose * E) * diagonal c * E.transpose := by simp only [Matrix.mul_assoc]
      _ = E * (diagonal a * diagonal c) * E.transpose := by rw [hE]; simp only [Matrix.mul_one, Matrix.mul_assoc]
      _ = _ := by rw [Matrix.diagonal_mul_diagonal]
  have hsymm : ∀ a : VecN ℝ n, (E * diagonal a * E.transpose).transpose = E * diagonal a * E.transpose := by
    intro a
    rw [Matrix.transpose_mul, Matrix.transpose_mul, Matrix.transpose_transpose, Matrix.diagonal_transpose, Matrix.mul_assoc]
  set Q := E * diagonal (fun i => e i * σ i) * E.transpose with hQ
  set P := E * diagonal (fun i => 1 - e i * σ i) * E.transpose with hP
  set S := E * diagonal σ * E.transpose with hS
  have hPQ : P = 1 - Q := by
    rw [hP, hQ]
    have : diagonal (fun i => 1 - e i * σ i) = 1 - diagonal (fun i => e i * σ i) := by
      rw [← Matrix.diagonal_one, Matrix.diagonal_sub]
    rw [this, Matrix.mul_sub, Matrix.sub_mul, Matrix.mul_one, hE']
  have hcoef : ∀ i, (1 - e i * σ i) * e i = 0 := by
    intro i
    rw [hσ i]
    by_cases h : e i = 0
    · simp [h]
    · rw [if_neg h]; field_simp; ring
  have hcoef2 : ∀ i, (1 - e i * σ i) * σ i = 0 := by
    intro i
    rw [hσ i]
    by_cases h : e i = 0
    · simp [h]
    · rw [if_neg h]; field_simp; ring
  have hMP : M * P = 0 := by
    apply mul_zero_of_gram
    have h1 : (M * P).transpose * (M * P) = P.transpose * ((M.transpose * M) * P) := by
      rw [Matrix.transpose_mul]; simp only [Matrix.mul_assoc]
    rw [h1, hM, hP, hsymm, hconj, hconj]
    have : (fun i => (1 - e i * σ i) * (e i * (1 - e i * σ i))) = fun _ => (0:ℝ) := by
      funext i
      have := hcoef i
      rw [← mul_assoc, this, zero_mul]
    rw [this]
    have : diagonal (fun _ : Fin n => (0:ℝ)) = 0 := Matrix.diagonal_zero
    rw [this]; simp
  have hMQ : M * Q = M := by
    have : M * P = M - M * Q := by rw [hPQ, Matrix.mul_sub, Matrix.mul_one]
    rw [this] at hMP
    exact (sub_eq_zero.1 hMP).symm
  have hQM : Q * M.transpose = M.transpose := by
    have := congrArg Matrix.transpose hMQ
    rw [Matrix.transpose_mul, hQ, hsymm] at this
    exact this
  have hATAS : (M.transpose * M) * S = Q := by rw [hM, hS, hconj]
  set w := M.transpose *ᵥ b - (M.transpose * M) *ᵥ p with hw
  have hwM : w = M.transpose *ᵥ (b - M *ᵥ p) := by
    rw [hw, Matrix.mulVec_sub, Matrix.mulVec_mulVec]
  have hxp : x - p = S *ᵥ w := by show S *ᵥ w + p - p = _; simp
  have hx : x = S *ᵥ w + p := rfl
  clear_value S Q P w x
  have hnormal : M.transpose *ᵥ (M *ᵥ x - b) = 0 := by
    rw [hx, Matrix.mulVec_sub, Matrix.mulVec_add, Matrix.mulVec_add, Matrix.mulVec_mulVec, Matrix.mulVec_mulVec,
      Matrix.mulVec_mulVec, hATAS, hwM, Matrix.mulVec_mulVec, hQM, Matrix.mulVec_sub,
      Matrix.mulVec_mulVec]
    simp
  have hsplit : ∀ y, (M *ᵥ y - b) ⬝ᵥ (M *ᵥ y - b) =
      (M *ᵥ x - b) ⬝ᵥ (M *ᵥ x - b) + (M *ᵥ (y - x)) ⬝ᵥ (M *ᵥ (y - x)) := by
    intro y
    have h1 : M *ᵥ y - b = (M *ᵥ x - b) + M *ᵥ (y - x) := by rw [Matrix.mulVec_sub]; abel
    have h2 : (M *ᵥ (y - x)) ⬝ᵥ (M *ᵥ x - b) = 0 := by rw [dot_mulVec_left, hnormal, dotProduct_zero]
    rw [h1, add_dotProduct, dotProduct_add, dotProduct_add, h2, dotProduct_comm (M *ᵥ x - b) (M *ᵥ (y - x)), h2]
    ring
  refine ⟨fun y => ?_, fun y hy => ?_⟩
  · rw [hsplit y]
    have := dot_self_nonneg (M *ᵥ (y - x))
    linarith
  · have h0 : M *ᵥ (y - x) = 0 := by
      apply dot_self_zero
      have := hsplit y
      linarith
    have horth : (y - x) ⬝ᵥ (x - p) = 0 := by
      -- x - p = Q (x - p) = Mᵀ M S (x - p)
      have h1 : Q *ᵥ (x - p) = x - p := by
        rw [hxp, Matrix.mulVec_mulVec, hQ, hS, hconj]
        congr 3
        have hfun : (fun i => e i * σ i * σ i) = σ := by
          funext i
          have := hcoef2 i
          linarith
        rw [hfun]
      rw [← h1, ← hATAS, Matrix.mul_assoc, ← Matrix.mulVec_mulVec, ← dot_mulVec_left, h0, zero_dotProduct]
    have h2 : y - p = (y - x) + (x - p) := by abel
    rw [h2, add_dotProduct, dotProduct_add, dotProduct_add, horth, dotProduct_comm (x - p) (y - x), horth]
    have := dot_self_nonneg (y - x)
    linarith

end

/-- The eigen decomposition computed inside `solve` for this (compressed) solver is exact, and every eigenvalue is either
zero or not truncated. -/
def ExactDecomposition (q : Qef ℝ (d + 2)) : Prop :=
  let S := q.leftMat.transpose * q.leftMat
  let eE := jacobi (fun c r => S r c) q.jacobiTolerance q.maxJacobiIters q.fast
  let E : Matrix (Fin (d + 2)) (Fin (d + 2)) ℝ := Matrix.of fun r c => eE.2 c r
  S = E * Matrix.diagonal eE.1 * E.transpose ∧ ∀ i, eE.1 i = 0 ∨ q.pinvTolerance ≤ |eE.1 i|

/-- Mass point of a solver: mean of the accumulated points. -/
noncomputable def massPoint (q : Qef ℝ d) : VecN ℝ d := fun i => q.pointsSum i / q.pointsCount

/-- Squared distance. -/
def distSq (x y : VecN ℝ d) : ℝ := ∑ i, (x i - y i) ^ 2

theorem compressed_err {q : Qef ℝ d} (hu : q.usedRows = d + 1)
    (hz : ∀ (j : Fin (d + 1)) (k : Nat), (j : Nat) < k → k < d + 1 → q.A j k = 0) (x : VecN ℝ d) :
    qerr q x = (q.leftMat *ᵥ x - fun r : Fin d => q.A (Fin.last d) r) ⬝ᵥ
      (q.leftMat *ᵥ x - fun r : Fin d => q.A (Fin.last d) r) + q.A (Fin.last d) d ^ 2 := by
  unfold qerr
  rw [hu, Finset.sum_range_succ, ← Fin.sum_univ_eq_sum_range (fun k => rowDot q.A (hom x) k ^ 2) d]
  congr 1
  · unfold dotProduct
    apply Finset.sum_congr rfl
    intro r _
    rw [rowDot_hom, ← pow_two]
    rfl
  · rw [rowDot_hom]
    have : (fun c : Fin d => q.A c.castSucc d) = 0 := by
      funext c
      exact hz c.castSucc d (by simp) (by omega)
    rw [this, zero_dotProduct]; ring

theorem solve_eq {M : Nat} {tiny : ℝ} {q q' : Qef ℝ (d + 2)} {lo hi x : VecN ℝ (d + 2)}
    (h : q.solve M tiny lo hi = some (q', x)) : ∃ q1, q.compressMatrix M tiny = some q1 ∧ q1.pointsCount ≠ 0 ∧
      q'.A = q1.A ∧ q'.usedRows = q1.usedRows ∧ q'.pointsSum = q1.pointsSum ∧ q'.pointsCount = q1.pointsCount ∧
      q'.pinvTolerance = q1.pinvTolerance ∧ q'.jacobiTolerance = q1.jacobiTolerance ∧
      q'.maxJacobiIters = q1.maxJacobiIters ∧ q'.fast = q1.fast ∧ x = Qef.clampV q1.unclamped lo hi ∧
      q'.featureDim = Qef.featureDimOf q1.pinvTolerance
        (jacobi (fun c r => (q1.leftMat.transpose * q1.leftMat) r c) q1.jacobiTolerance q1.maxJacobiIters q1.fast).1 := by
  simpa only [mulM_real] using solve_gen h

/-- Feature dimension after `solve`: the number of eigenvalues that are not truncated. -/
theorem featureDimOf_eq (tol : ℝ) (e : VecN ℝ d) :
    Qef.featureDimOf tol e = (Finset.univ.filter fun i => tol ≤ |e i|).card := by
  have key : ∀ (l : List (Fin d)) (m : Nat), l.length ≤ m →
      l.foldl (fun n i => if |e i| ≥ tol then n else n - 1) m =
        m - (l.filter fun i => decide (¬ |e i| ≥ tol)).length := by
    intro l
    induction l with
    | nil => intro m _; simp
    | cons i l ih =>
      intro m hm
      simp only [List.length_cons] at hm
      rw [List.foldl_cons]
      by_cases h : |e i| ≥ tol
      · rw [if_pos h, ih m (by omega)]; simp [h]
      · rw [if_neg h, ih (m - 1) (by omega), List.filter_cons_of_pos (by simpa using h)]; simp only [List.length_cons]; omega
  unfold Qef.featureDimOf
  simp only [fabs_abs]
  rw [key _ _ (by simp)]
  have h1 : ((List.finRange d).filter fun i => decide (¬ |e i| ≥ tol)).length =
      (Finset.univ.filter fun i : Fin d => ¬ tol ≤ |e i|).card := by
    rw [Finset.card_def, Finset.filter_val, Fin.univ_def]
    rfl
  have h2 := Finset.card_filter_add_card_filter_not (s := (Finset.univ : Finset (Fin d))) (fun i => tol ≤ |e i|)
  rw [Finset.card_univ, Fintype.card_fin] at h2
  rw [h1]; omega

section
variable {M bits : Nat} {tiny : ℝ}

theorem solve_optimal (ht : 0 < tiny) {q q' : Qef ℝ (d + 2)} (hq : QInv M q) (hc : CompressClean tiny q)
    {lo hi x : VecN ℝ (d + 2)} (h : q.solve M tiny lo hi = some (q', x)) (hex : ExactDecomposition q')
    (hbox : ∀ i, lo i < x i ∧ x i < hi i) :
    (∀ y, qerr q x ≤ qerr q y) ∧ (∀ y, qerr q y = qerr q x → distSq x (massPoint q) ≤ distSq y (massPoint q)) := by
  obtain ⟨q1, h1, hcnt, e1, e2, e3, e4, e5, e6, e7, e8, e9, _⟩ := solve_eq h
  obtain ⟨a1, a2, a3, a4, a5, a6⟩ := compress_spec ht hq hc h1
  -- the result is not clamped
  have hx : x = q1.unclamped := by
    funext i
    have hi' := hbox i
    rw [e9] at hi' ⊢
    unfold Qef.clampV at hi' ⊢
    have h2 : max (q1.unclamped i) (lo i) < hi i := by
      by_contra hcon
      rw [min_eq_right (not_lt.1 hcon)] at hi'
      exact lt_irrefl _ hi'.2
    rw [min_eq_left h2.le] at hi' ⊢
    rcases le_total (lo i) (q1.unclamped i) with h3 | h3
    · exact max_eq_left h3
    · rw [max_eq_right h3] at hi'
      exact absurd hi'.1 (lt_irrefl _)
  have hleft : q'.leftMat = q1.leftMat := by unfold Qef.leftMat; rw [e1]
  unfold ExactDecomposition at hex
  simp only [hleft, e6, e7, e8] at hex
  obtain ⟨hex1, hex2⟩ := hex
  rw [e5] at hex2
  set eE := jacobi (fun c r => (q1.leftMat.transpose * q1.leftMat) r c) q1.jacobiTolerance q1.maxJacobiIters q1.fast
    with heE
  set E : Matrix (Fin (d + 2)) (Fin (d + 2)) ℝ := Matrix.of fun r c => eE.2 c r with hE
  obtain ⟨D, _, _, _, _, hEt, _⟩ := jacobi_spec (q1.leftMat.transpose * q1.leftMat) (by
    intro p q
    simp only [Matrix.mul_apply, Matrix.transpose_apply]
    exact Finset.sum_congr rfl fun _ _ => mul_comm _ _) q1.jacobiTolerance q1.maxJacobiIters q1.fast
  rw [← heE, ← hE] at hEt
  have hσ : ∀ i, (fun i => if |eE.1 i| ≥ q1.pinvTolerance then 1 / eE.1 i else 0) i =
      if eE.1 i = 0 then 0 else 1 / eE.1 i := by
    intro i
    dsimp only
    by_cases h0 : eE.1 i = 0
    · simp [h0]
    · rw [if_neg h0]
      rcases hex2 i with h2 | h2
      · exact absurd h2 h0
      · rw [if_pos h2]
  have key := pinv_solution hEt hex1 hσ (fun r => q1.A (Fin.last (d + 2)) r) (massPoint q1)
  have hpd : Qef.pinvDiag q1.pinvTolerance eE.1 =
      Matrix.diagonal (fun i => if |eE.1 i| ≥ q1.pinvTolerance then 1 / eE.1 i else 0) := by
    ext r c
    simp [Qef.pinvDiag, Matrix.diagonal_apply, fabs_abs]
  have hxe : x = (E * Matrix.diagonal (fun i => if |eE.1 i| ≥ q1.pinvTolerance then 1 / eE.1 i else 0) * E.transpose) *ᵥ
      (q1.leftMat.transpose *ᵥ (fun r => q1.A (Fin.last (d + 2)) r) -
        (q1.leftMat.transpose * q1.leftMat) *ᵥ massPoint q1) + massPoint q1 := by
    rw [hx, ← hpd, unclamped_real]
    rfl
  rw [← hxe] at key
  have hmass : massPoint q1 = massPoint q := by rw [a6]; rfl
  have herr : ∀ y, qerr q y = _ := fun y => (a3 y).symm.trans (compressed_err a2 a4 y)
  have hdist : ∀ y p : VecN ℝ (d + 2), distSq y p = (y - p) ⬝ᵥ (y - p) := by
    intro y p
    unfold distSq dotProduct
    exact Finset.sum_congr rfl fun i _ => by rw [pow_two]; rfl
  refine ⟨fun y => ?_, fun y hy => ?_⟩
  · rw [herr, herr]
    have := key.1 y
    linarith
  · rw [herr, herr] at hy
    rw [hdist, hdist, ← hmass]
    exact key.2 y (by linarith)

end

/-! ### C38 -/

section
set_option linter.unusedSectionVars false
variable {K : Type} [Add K] [Sub K] [Mul K] [Div K] [Neg K] [Zero K] [One K] [OfNat K 2] [OfScientific K] [NatCast K] [IntCast K]
  [Fabs K] [Elem K] [LinearOrder K] [RoundedLaws K]

/-- C38.  The point returned by `solve` lies in the given box (whatever the accuracy of the decomposition). -/
theorem C38_box (tiny : K) (q q' : Qef K 3) (lo hi x : VecN K 3) (h : q.solve qef3Rows tiny lo hi = some (q', x))
    (hbox : ∀ i, lo i ≤ hi i) : ∀ i, lo i ≤ x i ∧ x i ≤ hi i := by
  obtain ⟨q1, _, _, _, _, _, _, _, _, _, _, e, _⟩ := solve_gen h
  rw [e]
  exact clamp_mem hbox

end

/-- C38.  After any history, if the eigen decomposition is exact, no non-zero eigenvalue is truncated and the returned
point is strictly inside the box (so was not clamped), it minimises the error, and among the minimisers it is the
closest to the mass point. -/
theorem C38_optimal {tiny : ℝ} (ht : 0 < tiny) (ops : List (QefOp ℝ 3)) (hc : CleanRun qef3Rows 30 tiny Qef.new3 ops)
    {q q' : Qef ℝ 3} (h : runOps qef3Rows 30 tiny Qef.new3 ops = some q) (hcc : CompressClean tiny q) {lo hi x : VecN ℝ 3}
    (hs : q.solve qef3Rows tiny lo hi = some (q', x)) (hex : ExactDecomposition q')
    (hbox : ∀ i, lo i < x i ∧ x i < hi i) :
    (∀ y, expectedErr ops x ≤ expectedErr ops y) ∧
    (∀ y, expectedErr ops y = expectedErr ops x → distSq x (massPoint q) ≤ distSq y (massPoint q)) := by
  obtain ⟨i, e⟩ := run_spec ht (by simp [qef3Rows]) ops new3_inv hc h
  have he : ∀ p, qerr q p = expectedErr ops p := fun p => by rw [e p, new3_err]; rfl
  have := solve_optimal ht i hcc hs hex hbox
  simpa only [he] using this

/-- C38.  The feature dimension recorded by `solve` is the number of eigenvalues kept, at most three (so it fits its two
bits in the stored state). -/
theorem C38_feature_dim (tiny : ℝ) (q q' : Qef ℝ 3) (lo hi x : VecN ℝ 3) (h : q.solve qef3Rows tiny lo hi = some (q', x)) :
    q'.featureDim = (Finset.univ.filter fun i => q'.pinvTolerance ≤
      |(jacobi (fun c r => (q'.leftMat.transpose * q'.leftMat) r c) q'.jacobiTolerance q'.maxJacobiIters q'.fast).1 i|).card ∧
    q'.featureDim ≤ 3 := by
  obtain ⟨q1, _, _, e1, _, _, _, e5, e6, e7, e8, _, e⟩ := solve_eq h
  have hleft : q'.leftMat = q1.leftMat := by unfold Qef.leftMat; rw [e1]
  rw [e, hleft, e5, e6, e7, e8, featureDimOf_eq]
  refine ⟨rfl, ?_⟩
  exact le_trans (Finset.card_filter_le _ _) (by simp)

section
variable {K : Type} [Add K] [Sub K] [Mul K] [Div K] [Neg K] [Zero K] [One K] [OfNat K 2] [OfScientific K] [NatCast K] [IntCast K]
  [Fabs K] [Elem K] [LinearOrder K] [RoundedLaws K]

/-- C39 (C38 for the 4D solver: result in the box). -/
theorem C39_box (tiny : K) (q q' : Qef K 4) (lo hi x : VecN K 4) (h : q.solve qef4Rows tiny lo hi = some (q', x))
    (hbox : ∀ i, lo i ≤ hi i) : ∀ i, lo i ≤ x i ∧ x i ≤ hi i := by
  obtain ⟨q1, _, _, _, _, _, _, _, _, _, _, e, _⟩ := solve_gen h
  rw [e]
  exact clamp_mem hbox

end

/-- C39 (C38 for the 4D solver: optimality). -/
theorem C39_optimal {tiny : ℝ} (ht : 0 < tiny) (ops : List (QefOp ℝ 4)) (hc : CleanRun qef4Rows 29 tiny Qef.new4 ops)
    {q q' : Qef ℝ 4} (h : runOps qef4Rows 29 tiny Qef.new4 ops = some q) (hcc : CompressClean tiny q) {lo hi x : VecN ℝ 4}
    (hs : q.solve qef4Rows tiny lo hi = some (q', x)) (hex : ExactDecomposition q')
    (hbox : ∀ i, lo i < x i ∧ x i < hi i) :
    (∀ y, expectedErr ops x ≤ expectedErr ops y) ∧
    (∀ y, expectedErr ops y = expectedErr ops x → distSq x (massPoint q) ≤ distSq y (massPoint q)) := by
  obtain ⟨i, e⟩ := run_spec ht (by simp [qef4Rows]) ops new4_inv hc h
  have he : ∀ p, qerr q p = expectedErr ops p := fun p => by rw [e p, new4_err]; rfl
  have := solve_optimal ht i hcc hs hex hbox
  simpa only [he] using this

end Isomesh
