import Verif.Props.QefSolve
import Verif.Props.DcUniform
import Verif.Spec.Order

/-! The solution of a solver depends only on its error function, the sum and number of its points and its options (C78). -/

namespace Isomesh

open Finset Spec Matrix

section
variable {n : Nat}

theorem residual_expand (M : Matrix (Fin n) (Fin n) ℝ) (b x : VecN ℝ n) (c : ℝ) :
    (M *ᵥ x - b) ⬝ᵥ (M *ᵥ x - b) + c =
      x ⬝ᵥ ((M.transpose * M) *ᵥ x) - 2 * (x ⬝ᵥ (M.transpose *ᵥ b)) + (b ⬝ᵥ b + c) := by
  rw [sub_dotProduct, dotProduct_sub, dotProduct_sub, dot_mulVec_left, dot_mulVec_left, dotProduct_comm b (M *ᵥ x),
    dot_mulVec_left, Matrix.mulVec_mulVec]
  ring

theorem quadratic_unique {S T : Matrix (Fin n) (Fin n) ℝ} {v w : VecN ℝ n} {c e : ℝ} (hS : S.transpose = S)
    (hT : T.transpose = T)
    (h : ∀ x : VecN ℝ n, x ⬝ᵥ (S *ᵥ x) - 2 * (x ⬝ᵥ v) + c = x ⬝ᵥ (T *ᵥ x) - 2 * (x ⬝ᵥ w) + e) : S = T ∧ v = w := by
  have h0 := h 0
  simp only [zero_dotProduct, mul_zero, sub_zero, zero_add] at h0
  have hneg : ∀ x : VecN ℝ n, x ⬝ᵥ (S *ᵥ x) + 2 * (x ⬝ᵥ v) + c = x ⬝ᵥ (T *ᵥ x) + 2 * (x ⬝ᵥ w) + e := by
    intro x
    have := h (-x)
    simp only [Matrix.mulVec_neg, neg_dotProduct, dotProduct_neg, neg_neg] at this
    linarith
  have hq : ∀ x : VecN ℝ n, x ⬝ᵥ (S *ᵥ x) = x ⬝ᵥ (T *ᵥ x) := fun x => by linarith [h x, hneg x]
  have hl : ∀ x : VecN ℝ n, x ⬝ᵥ v = x ⬝ᵥ w := fun x => by linarith [h x, hneg x]
  have hb : ∀ x y : VecN ℝ n, x ⬝ᵥ (S *ᵥ y) = x ⬝ᵥ (T *ᵥ y) := by
    intro x y
    have h1 := hq (x + y)
    simp only [Matrix.mulVec_add, add_dotProduct, dotProduct_add] at h1
    have s1 : y ⬝ᵥ (S *ᵥ x) = x ⬝ᵥ (S *ᵥ y) := by rw [dotProduct_comm, dot_mulVec_left, hS]
    have s2 : y ⬝ᵥ (T *ᵥ x) = x ⬝ᵥ (T *ᵥ y) := by rw [dotProduct_comm, dot_mulVec_left, hT]
    linarith [hq x, hq y]
  constructor
  · ext i j
    have := hb (Pi.single i 1) (Pi.single j 1)
    simpa using this
  · funext i
    have := hl (Pi.single i 1)
    simpa using this

end

section
variable {d M M' : Nat} {tiny tiny' : ℝ}

/-- The normal equations of a compressed solver determine its answer. -/
theorem answer_eq {q q1 : Qef ℝ (d + 2)} (h1 : q.compressMatrix M tiny = some q1) (lo hi : VecN ℝ (d + 2)) :
    answer M tiny q lo hi =
      (let S := q1.leftMat.transpose * q1.leftMat
       let eE := jacobi (fun c r => S r c) q1.jacobiTolerance q1.maxJacobiIters q1.fast
       let E : Matrix (Fin (d + 2)) (Fin (d + 2)) ℝ := Matrix.of fun r c => eE.2 c r
       let p : VecN ℝ (d + 2) := fun i => q1.pointsSum i / q1.pointsCount
       if q1.pointsCount = 0 ∨ ∃ i, fabs (eE.1 i) ≥ q1.pinvTolerance ∧ eE.1 i = 0 then none
       else some (Qef.clampV ((E * Qef.pinvDiag q1.pinvTolerance eE.1 * E.transpose) *ᵥ
          (q1.leftMat.transpose *ᵥ (fun r : Fin (d + 2) => q1.A (Fin.last (d + 2)) r) - S *ᵥ p) + p) lo hi,
          Qef.featureDimOf q1.pinvTolerance eE.1)) := by
  unfold answer Qef.solve
  simp only [h1, Option.bind_eq_bind, Option.bind_some, mulM_real]
  split_ifs
  · rfl
  · simp only [Option.map_some, Qef.unclamped, mulM_real, mulV_real]

/-- The solution depends only on the error function, the sum and number of the points, and the options. -/
theorem answer_determined (hM : d + 2 + 1 ≤ M) (hM' : d + 2 + 1 ≤ M') (ht : 0 < tiny) (ht' : 0 < tiny')
    {q q' : Qef ℝ (d + 2)} (hq : QInv M q) (hq' : QInv M' q')
    (hc : CompressClean tiny q) (hc' : CompressClean tiny' q') (he : ∀ p, qerr q p = qerr q' p)
    (hsum : q.pointsSum = q'.pointsSum) (hcnt : q.pointsCount = q'.pointsCount) (hopt : SameOptions q q')
    (lo hi : VecN ℝ (d + 2)) : answer M tiny q lo hi = answer M' tiny' q' lo hi := by
  obtain ⟨A, hA⟩ := compress_some (tiny := tiny) hM hq.rows
  obtain ⟨A', hA'⟩ := compress_some (tiny := tiny') hM' hq'.rows
  obtain ⟨-, a2, a3, a4, -, -⟩ := compress_spec ht hq hc hA
  obtain ⟨-, b2, b3, b4, -, -⟩ := compress_spec ht' hq' hc' hA'
  generalize hq1 : ({ q with A := A, usedRows := d + 2 + 1 } : Qef ℝ (d + 2)) = q1 at *
  generalize hq2 : ({ q' with A := A', usedRows := d + 2 + 1 } : Qef ℝ (d + 2)) = q2 at *
  have key := quadratic_unique (S := q1.leftMat.transpose * q1.leftMat) (T := q2.leftMat.transpose * q2.leftMat)
    (by rw [Matrix.transpose_mul, Matrix.transpose_transpose]) (by rw [Matrix.transpose_mul, Matrix.transpose_transpose])
    (fun x => by
      rw [← residual_expand q1.leftMat (fun r : Fin (d + 2) => q1.A (Fin.last (d + 2)) r) x (q1.A (Fin.last (d + 2)) (d + 2) ^ 2),
        ← residual_expand q2.leftMat (fun r : Fin (d + 2) => q2.A (Fin.last (d + 2)) r) x (q2.A (Fin.last (d + 2)) (d + 2) ^ 2),
        ← compressed_err a2 a4, ← compressed_err b2 b4, a3, b3, he])
  have o1 : q1.pinvTolerance = q2.pinvTolerance := by rw [← hq1, ← hq2]; exact hopt.1.symm
  have o2 : q1.jacobiTolerance = q2.jacobiTolerance := by rw [← hq1, ← hq2]; exact hopt.2.1.symm
  have o3 : q1.maxJacobiIters = q2.maxJacobiIters := by rw [← hq1, ← hq2]; exact hopt.2.2.1.symm
  have o4 : q1.fast = q2.fast := by rw [← hq1, ← hq2]; exact hopt.2.2.2.symm
  have o5 : q1.pointsSum = q2.pointsSum := by rw [← hq1, ← hq2]; exact hsum
  have o6 : q1.pointsCount = q2.pointsCount := by rw [← hq1, ← hq2]; exact hcnt
  rw [answer_eq hA, answer_eq hA']
  simp only [key.1, key.2, o1, o2, o3, o4, o5, o6]

/-- Histories of planes only. -/
theorem planes_run (ht : 0 < tiny) (hM : 2 * (d + 2 + 1) ≤ M) {bits : Nat} (ps : List (VecN ℝ (d + 2) × VecN ℝ (d + 2)))
    {q : Qef ℝ (d + 2)} (hq : QInv M q) (hcnt : q.pointsCount < 2 ^ 32)
    (hc : CleanRun M bits tiny q (ps.map fun a => .addPlane a.1 a.2)) :
    ∃ q', runOps M bits tiny q (ps.map fun a => .addPlane a.1 a.2) = some q' ∧ QInv M q' ∧
      (∀ p, qerr q' p = qerr q p + (ps.map fun a => planeErr a.1 a.2 p).sum) ∧
      q'.pointsSum = q.pointsSum + (ps.map (·.1)).sum ∧ q'.pointsCount = (q.pointsCount + ps.length) % 2 ^ 32 ∧
      SameOptions q q' := by
  induction ps generalizing q with
  | nil => exact ⟨q, rfl, hq, fun p => by simp, by simp, (Nat.mod_eq_of_lt hcnt).symm, rfl, rfl, rfl, rfl⟩
  | cons a ps ih =>
    obtain ⟨q1, h1, i1, e1, s1, c1, -, o1, o2, o3, o4⟩ := addPlane_spec ht (by omega) hq hc.1 a.1 a.2
    obtain ⟨q2, h2, i2, e2, s2, c2, p1, p2, p3, p4⟩ := ih i1 (by rw [c1]; exact Nat.mod_lt _ (by norm_num)) (hc.2 q1 h1)
    refine ⟨q2, ?_, i2, fun p => ?_, ?_, ?_, by rw [p1, o1], by rw [p2, o2], by rw [p3, o3], by rw [p4, o4]⟩
    · unfold runOps at h2 ⊢
      simp only [List.map_cons, List.foldlM_cons, QefOp.apply, h1, Option.bind_eq_bind, Option.bind_some]
      exact h2
    · rw [e2, e1, List.map_cons, List.sum_cons, add_assoc]
    · rw [s2, s1, List.map_cons, List.sum_cons, add_assoc]
    · rw [c2, c1]
      simp only [u32, List.length_cons]
      omega

/-- Histories of merges only. -/
theorem merges_run (ht : 0 < tiny) (hM : 2 * (d + 2 + 1) ≤ M) {bits : Nat} (ss : List (QState ℝ (d + 2)))
    {q : Qef ℝ (d + 2)} (hq : QInv M q) (hc : CleanRun M bits tiny q (ss.map .merge)) :
    ∃ q', runOps M bits tiny q (ss.map .merge) = some q' ∧ QInv M q' ∧
      (∀ p, qerr q' p = qerr q p + (ss.map fun s => stateErr s p).sum) ∧
      massOf q' = (ss.map stateMass).foldl Mass.combine (massOf q) ∧ SameOptions q q' := by
  induction ss generalizing q with
  | nil => exact ⟨q, rfl, hq, fun p => by simp, rfl, rfl, rfl, rfl, rfl⟩
  | cons a ss ih =>
    obtain ⟨q1, h1, i1, e1, s1, o1, o2, o3, o4⟩ := merge_spec ht (by omega) hq hc.1 a
    obtain ⟨q2, h2, i2, e2, s2, p1, p2, p3, p4⟩ := ih i1 (hc.2 q1 h1)
    refine ⟨q2, ?_, i2, fun p => ?_, ?_, by rw [p1, o1], by rw [p2, o2], by rw [p3, o3], by rw [p4, o4]⟩
    · unfold runOps at h2 ⊢
      simp only [List.map_cons, List.foldlM_cons, QefOp.apply, h1, Option.bind_eq_bind, Option.bind_some]
      exact h2
    · rw [e2, e1, List.map_cons, List.sum_cons, add_assoc]
    · rw [s2, s1, List.map_cons, List.foldl_cons]

theorem reset_qinv (q : Qef ℝ (d + 2)) : QInv M q.reset := ⟨by simp [Qef.reset], fun _ _ _ _ => rfl⟩

theorem reset_qerr (q : Qef ℝ (d + 2)) (p : VecN ℝ (d + 2)) : qerr q.reset p = 0 := by simp [qerr, Qef.reset]

/-- Planes added after a reset: two orders, possibly two thresholds. -/
theorem planes_answer (ht : 0 < tiny) (ht' : 0 < tiny') (hM : 2 * (d + 2 + 1) ≤ M) {bits : Nat}
    {ps ps' : List (VecN ℝ (d + 2) × VecN ℝ (d + 2))} (hp : ps.Perm ps') {q0 q0' q q' : Qef ℝ (d + 2)}
    (ho : SameOptions q0 q0')
    (hc : CleanRun M bits tiny q0 (.reset :: ps.map fun a => .addPlane a.1 a.2))
    (hc' : CleanRun M bits tiny' q0' (.reset :: ps'.map fun a => .addPlane a.1 a.2))
    (h : runOps M bits tiny q0 (.reset :: ps.map fun a => .addPlane a.1 a.2) = some q)
    (h' : runOps M bits tiny' q0' (.reset :: ps'.map fun a => .addPlane a.1 a.2) = some q')
    (cc : CompressClean tiny q) (cc' : CompressClean tiny' q') (lo hi : VecN ℝ (d + 2)) :
    answer M tiny q lo hi = answer M tiny' q' lo hi := by
  obtain ⟨q1, h1, i1, e1, s1, c1, o1⟩ := planes_run ht hM ps (reset_qinv q0) (by norm_num [Qef.reset]) (hc.2 _ rfl)
  obtain ⟨q2, h2, i2, e2, s2, c2, o2⟩ := planes_run ht' hM ps' (reset_qinv q0') (by norm_num [Qef.reset]) (hc'.2 _ rfl)
  have g1 : q = q1 := by
    have : runOps M bits tiny q0 (.reset :: ps.map fun a => .addPlane a.1 a.2) = some q1 := h1
    rw [h] at this; simpa using this
  have g2 : q' = q2 := by
    have : runOps M bits tiny' q0' (.reset :: ps'.map fun a => .addPlane a.1 a.2) = some q2 := h2
    rw [h'] at this; simpa using this
  subst g1 g2
  refine answer_determined (by omega) (by omega) ht ht' i1 i2 cc cc' (fun p => ?_) ?_ ?_ ?_ lo hi
  · rw [e1, e2, reset_qerr, reset_qerr, (hp.map _).sum_eq]
  · rw [s1, s2, (hp.map _).sum_eq]; rfl
  · rw [c1, c2, hp.length_eq]; rfl
  · exact ⟨by rw [o2.1, o1.1]; exact ho.1, by rw [o2.2.1, o1.2.1]; exact ho.2.1, by rw [o2.2.2.1, o1.2.2.1]; exact ho.2.2.1,
      by rw [o2.2.2.2, o1.2.2.2]; exact ho.2.2.2⟩

theorem combine_perm {l l' : List (Mass ℝ (d + 2))} (h : l.Perm l') (m : Mass ℝ (d + 2)) :
    l.foldl Mass.combine m = l'.foldl Mass.combine m := by
  apply List.Perm.foldl_eq' h
  intro a _ b _ m
  rw [C36_combine_assoc, C36_combine_assoc, C36_combine_comm a b]

/-- States merged after a reset: two orders, possibly two thresholds. -/
theorem merges_answer (ht : 0 < tiny) (ht' : 0 < tiny') (hM : 2 * (d + 2 + 1) ≤ M) {bits : Nat}
    {ss ss' : List (QState ℝ (d + 2))} (hp : ss.Perm ss') {q0 q0' q q' : Qef ℝ (d + 2)}
    (ho : SameOptions q0 q0')
    (hc : CleanRun M bits tiny q0 (.reset :: ss.map .merge)) (hc' : CleanRun M bits tiny' q0' (.reset :: ss'.map .merge))
    (h : runOps M bits tiny q0 (.reset :: ss.map .merge) = some q)
    (h' : runOps M bits tiny' q0' (.reset :: ss'.map .merge) = some q')
    (cc : CompressClean tiny q) (cc' : CompressClean tiny' q') (lo hi : VecN ℝ (d + 2)) :
    answer M tiny q lo hi = answer M tiny' q' lo hi := by
  obtain ⟨q1, h1, i1, e1, s1, o1⟩ := merges_run ht hM ss (reset_qinv q0) (hc.2 _ rfl)
  obtain ⟨q2, h2, i2, e2, s2, o2⟩ := merges_run ht' hM ss' (reset_qinv q0') (hc'.2 _ rfl)
  have g1 : q = q1 := by
    have : runOps M bits tiny q0 (.reset :: ss.map .merge) = some q1 := h1
    rw [h] at this; simpa using this
  have g2 : q' = q2 := by
    have : runOps M bits tiny' q0' (.reset :: ss'.map .merge) = some q2 := h2
    rw [h'] at this; simpa using this
  subst g1 g2
  have hm : massOf q = massOf q' := by
    rw [s1, s2, combine_perm (hp.map _)]; rfl
  refine answer_determined (by omega) (by omega) ht ht' i1 i2 cc cc' (fun p => ?_) ?_ ?_ ?_ lo hi
  · rw [e1, e2, reset_qerr, reset_qerr, (hp.map _).sum_eq]
  · exact congrArg (·.sum) hm
  · exact congrArg (·.cnt) hm
  · exact ⟨by rw [o2.1, o1.1]; exact ho.1, by rw [o2.2.1, o1.2.1]; exact ho.2.1, by rw [o2.2.2.1, o1.2.2.1]; exact ho.2.2.1,
      by rw [o2.2.2.2, o1.2.2.2]; exact ho.2.2.2⟩

/-- Runs that end with a successful `solve`, from a clean run including it. -/
theorem cleanRun_append {bits : Nat} {q : Qef ℝ (d + 2)} {ops ops' : List (QefOp ℝ (d + 2))} :
    CleanRun M bits tiny q (ops ++ ops') ↔ CleanRun M bits tiny q ops ∧
      ∀ q', runOps M bits tiny q ops = some q' → CleanRun M bits tiny q' ops' := by
  induction ops generalizing q with
  | nil => simp [CleanRun, runOps]
  | cons o ops ih =>
    simp only [List.cons_append, CleanRun, ih, runOps, List.foldlM_cons, Option.bind_eq_bind, Option.bind_eq_some_iff]
    constructor
    · rintro ⟨a, b⟩
      exact ⟨⟨a, fun q' h => (b q' h).1⟩, fun q' ⟨q1, h1, h2⟩ => (b q1 h1).2 q' h2⟩
    · rintro ⟨⟨a, b⟩, c⟩
      exact ⟨a, fun q' h => ⟨b q' h, fun q2 h2 => c q2 ⟨q', h, h2⟩⟩⟩

end

end Isomesh
