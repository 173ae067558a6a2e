import Verif.Props.QefSolve

/-! A concrete case meeting the hypotheses of `C38_optimal` (three planes meeting in the middle of the unit cube). -/

namespace Isomesh

open Finset Spec Matrix

variable {d : Nat}

/-- Compression preserves the Gram matrix of the columns. -/
theorem gram_of_form {A A' : QMat ℝ d} {u u' : Nat}
    (h : ∀ x, ∑ k ∈ Finset.range u', rowDot A' x k ^ 2 = ∑ k ∈ Finset.range u, rowDot A x k ^ 2) (a b : Fin (d + 1)) :
    ∑ k ∈ Finset.range u', A' a k * A' b k = ∑ k ∈ Finset.range u, A a k * A b k := by
  have r1 : ∀ (B : QMat ℝ d) (c : Fin (d + 1)) k, rowDot B (Pi.single c 1) k = B c k := by
    intro B c k; unfold rowDot; simp [Pi.single_apply]
  have r2 : ∀ (B : QMat ℝ d) k, rowDot B (Pi.single a 1 + Pi.single b 1) k = B a k + B b k := by
    intro B k
    rw [← r1 B a k, ← r1 B b k]
    unfold rowDot
    rw [← Finset.sum_add_distrib]
    exact Finset.sum_congr rfl fun j _ => by rw [Pi.add_apply]; ring
  have h1 := h (Pi.single a 1)
  have h2 := h (Pi.single b 1)
  have h3 := h (Pi.single a 1 + Pi.single b 1)
  simp only [r1, r2] at h1 h2 h3
  have e : ∀ (B : QMat ℝ d) (n : Nat), ∑ k ∈ Finset.range n, (B a k + B b k) ^ 2 =
      ∑ k ∈ Finset.range n, B a k ^ 2 + ∑ k ∈ Finset.range n, B b k ^ 2 + 2 * ∑ k ∈ Finset.range n, B a k * B b k := by
    intro B n
    rw [Finset.mul_sum, ← Finset.sum_add_distrib, ← Finset.sum_add_distrib]
    exact Finset.sum_congr rfl fun k _ => by ring
  rw [e, e] at h3
  linarith

theorem jacobi_one (tol : ℝ) (h : 0 ≤ tol) (n : Int) (fast : Bool) :
    jacobi (fun c r : Fin 3 => if c = r then (1:ℝ) else 0) tol n fast =
      (fun _ => 1, fun c r => if c = r then 1 else 0) := by
  have hloop : jacobiLoop tol fast n.toNat (fun c r : Fin 3 => if c = r then (1:ℝ) else 0)
      (fun c r => if c = r then 1 else 0) = (fun c r => if c = r then 1 else 0, fun c r => if c = r then 1 else 0) := by
    cases hn : n.toNat with
    | zero => rfl
    | succ m =>
      unfold jacobiLoop
      have hp := findPivot_spec (fun c r : Fin 3 => if c = r then (1:ℝ) else 0)
      have : (findPivot fun c r : Fin 3 => if c = r then (1:ℝ) else 0).el = 0 := by
        rw [hp.1, if_neg hp.2.1.ne, abs_zero]
      dsimp only
      rw [this, if_pos h]
  unfold jacobi
  rw [hloop]
  simp

/-- Three axis-parallel planes through the middle of the unit cube. -/
noncomputable def demoPlanes : List (QefOp ℝ 3) :=
  [.addPlane (fun _ => 1 / 2) (Pi.single 0 1), .addPlane (fun _ => 1 / 2) (Pi.single 1 1),
   .addPlane (fun _ => 1 / 2) (Pi.single 2 1)]

/-- The hypotheses of `C38_optimal` hold for `demoPlanes`; the solution is the common point. -/
theorem demo_solve : ∃ tiny : ℝ, 0 < tiny ∧ CleanRun qef3Rows 30 tiny Qef.new3 demoPlanes ∧
    ∃ q q' x, runOps qef3Rows 30 tiny Qef.new3 demoPlanes = some q ∧ CompressClean tiny q ∧
      q.solve qef3Rows tiny (fun _ => 0) (fun _ => 1) = some (q', x) ∧ ExactDecomposition q' ∧
      x = (fun _ => 1 / 2) ∧ ∀ i, (0:ℝ) < x i ∧ x i < 1 := by
  obtain ⟨q, hq, hu, hA, hps, hpc, hopt⟩ : ∃ q : Qef ℝ 3,
      (∀ t, runOps qef3Rows 30 t Qef.new3 demoPlanes = some q) ∧ q.usedRows = 3 ∧
      ((∀ k : Fin 3, q.A (Fin.last 3) k = 1 / 2) ∧ ∀ c k : Fin 3, q.A c.castSucc k = if k = c then 1 else 0) ∧
      q.pointsSum = (fun _ => 3 / 2) ∧ q.pointsCount = 3 ∧
      (q.pinvTolerance = 0.01 ∧ q.jacobiTolerance = 0.0025 ∧ q.maxJacobiIters = 15 ∧ q.fast = true) := by
    refine ⟨_, fun t => rfl, rfl, ⟨?_, ?_⟩, ?_, rfl, rfl, rfl, rfl, rfl⟩
    · intro k
      have hs : ∀ (n : VecN ℝ 3) (v : ℝ), (Fin.snoc (α := fun _ => ℝ) n v : Fin 4 → ℝ) 3 = v :=
        fun n v => Fin.snoc_last (α := fun _ => ℝ) v n
      fin_cases k <;> simp [Qef.new3, hs, dotProduct, Pi.single_apply]
    · intro c k
      fin_cases k <;> simp [Qef.new3, Fin.snoc_castSucc, Pi.single_apply, eq_comm]
    · funext i
      simp [Qef.new3]
      norm_num
  obtain ⟨δ1, h1, h1'⟩ := cleanRun_exists qef3Rows 30 demoPlanes Qef.new3
  obtain ⟨δ2, h2, h2'⟩ := compress_exists qef3Rows q
  refine ⟨min δ1 δ2, lt_min h1 h2, h1' _ (lt_min h1 h2) (min_le_left _ _), q, ?_⟩
  set t := min δ1 δ2
  have ht : 0 < t := lt_min h1 h2
  have hcc : CompressClean t q := (h2' t ht (min_le_right _ _)).1
  obtain ⟨iq, _⟩ := run_spec ht (by simp [qef3Rows]) demoPlanes new3_inv (h1' t ht (min_le_left _ _)) (hq t)
  obtain ⟨A, hA'⟩ := compress_some (tiny := t) (by simp [qef3Rows] : 3 + 1 ≤ qef3Rows) iq.rows
  obtain ⟨a1, a2, a3, a4, a5, a6⟩ := compress_spec ht iq hcc hA'
  set q1 : Qef ℝ 3 := { q with A := A, usedRows := 3 + 1 } with hq1
  have hgram : ∀ a b : Fin 4, ∑ k ∈ Finset.range 4, A a k * A b k = ∑ k ∈ Finset.range 3, q.A a k * q.A b k := by
    intro a b
    have := gram_of_form a5 a b
    rw [hu] at this
    exact this
  have hlast : ∀ c : Fin 3, A c.castSucc 3 = 0 := fun c => a4 c.castSucc 3 (by simp) (by omega)
  have hg3 : ∀ (c : Fin 3) (b : Fin 4), ∑ k : Fin 3, A c.castSucc k * A b k = ∑ k : Fin 3, q.A c.castSucc k * q.A b k := by
    intro c b
    have := hgram c.castSucc b
    rw [Finset.sum_range_succ, hlast, zero_mul, add_zero] at this
    rw [Fin.sum_univ_eq_sum_range (fun k => A c.castSucc k * A b k), Fin.sum_univ_eq_sum_range (fun k => q.A c.castSucc k * q.A b k)]
    exact this
  have hATA : q1.leftMat.transpose * q1.leftMat = 1 := by
    ext a b
    rw [Matrix.mul_apply]
    show ∑ k : Fin 3, A a.castSucc k * A b.castSucc k = _
    rw [hg3]
    simp only [hA.2]
    simp [Matrix.one_apply, eq_comm]
  have hATb : q1.leftMat.transpose *ᵥ (fun r : Fin 3 => q1.A (Fin.last 3) r) = fun _ => 1 / 2 := by
    funext a
    show ∑ k : Fin 3, A a.castSucc k * A (Fin.last 3) k = _
    rw [hg3]
    simp only [hA.1, hA.2]
    simp
  have hjac : jacobi (fun c r => (q1.leftMat.transpose * q1.leftMat) r c) q1.jacobiTolerance q1.maxJacobiIters q1.fast =
      (fun _ => 1, fun c r => if c = r then 1 else 0) := by
    rw [hATA]
    have : (fun c r : Fin 3 => (1 : Matrix (Fin 3) (Fin 3) ℝ) r c) = fun c r => if c = r then 1 else 0 := by
      funext c r; rw [Matrix.one_apply]; simp [eq_comm]
    rw [this]
    apply jacobi_one
    show 0 ≤ q.jacobiTolerance
    rw [hopt.2.1]; norm_num
  have hE1 : (Matrix.of fun r c : Fin 3 => if c = r then (1:ℝ) else 0) = 1 := by
    ext r c; simp [Matrix.one_apply, eq_comm]
  have hun : q1.unclamped = fun _ => 1 / 2 := by
    rw [unclamped_real]
    dsimp only
    rw [hjac, hATA]
    dsimp only
    have hpd : Qef.pinvDiag q1.pinvTolerance (fun _ : Fin 3 => (1:ℝ)) = 1 := by
      ext r c
      have : q1.pinvTolerance ≤ |(1:ℝ)| := by
        show q.pinvTolerance ≤ _
        rw [hopt.1]; norm_num
      simp only [Qef.pinvDiag, fabs_abs, Matrix.of_apply, ge_iff_le, this, if_true, Matrix.one_apply]
      simp
    rw [hpd, hE1]
    simp only [Matrix.transpose_one, Matrix.mul_one, Matrix.one_mulVec]
    have := hATb
    show q1.leftMat.transpose *ᵥ (fun r : Fin 3 => q1.A (Fin.last 3) r) - _ + _ = _
    rw [this]
    simp
  have hsolve : ∃ q', q.solve qef3Rows t (fun _ => 0) (fun _ => 1) =
      some (q', Qef.clampV q1.unclamped (fun _ => 0) (fun _ => 1)) ∧ q' = { q1 with featureDim := q'.featureDim } := by
    rw [solve_real]
    simp only [hA', Option.bind_eq_bind, Option.bind_some]
    have hj1 : ∀ i, (jacobi (fun c r => (q1.leftMat.transpose * q1.leftMat) r c) q1.jacobiTolerance q1.maxJacobiIters
        q1.fast).1 i = 1 := fun i => by rw [hjac]
    rw [if_neg]
    · exact ⟨_, rfl, rfl⟩
    · rintro (h | ⟨i, _, h⟩)
      · have h' : q.pointsCount = 0 := h
        rw [hpc] at h'; simp at h'
      · rw [hj1 i] at h; simp at h
  obtain ⟨q', hs, hq'⟩ := hsolve
  have hclamp : Qef.clampV q1.unclamped (fun _ => 0) (fun _ => 1) = fun _ => 1 / 2 := by
    rw [hun]
    apply clamp_id
    intro i; norm_num
  rw [hclamp] at hs
  refine ⟨q', _, hq t, hcc, hs, ?_, rfl, fun i => by norm_num⟩
  have hl : q'.leftMat = q1.leftMat := by rw [hq']; rfl
  have hp1 : q'.jacobiTolerance = q1.jacobiTolerance := by rw [hq']
  have hp2 : q'.maxJacobiIters = q1.maxJacobiIters := by rw [hq']
  have hp3 : q'.fast = q1.fast := by rw [hq']
  have hp4 : q'.pinvTolerance = 0.01 := by rw [hq']; exact hopt.1
  unfold ExactDecomposition
  dsimp only
  rw [hl, hp1, hp2, hp3, hp4, hjac]
  dsimp only
  rw [hE1, hATA]
  refine ⟨?_, fun i => Or.inr (by norm_num)⟩
  have : diagonal (fun _ : Fin 3 => (1:ℝ)) = 1 := Matrix.diagonal_one
  rw [this]; simp

end Isomesh
