import Verif.Proofs.Householder
import Verif.Proofs.QefGen
import Verif.Proofs.QefReal
import Mathlib.Algebra.BigOperators.Fin

/-! The error function of a QEF solver under its operations. -/

namespace Isomesh

open Spec Finset

variable {d : Nat}

/-- Homogeneous coordinates of a point. -/
noncomputable def hom (p : VecN ℝ d) : Fin (d + 1) → ℝ := Fin.snoc (α := fun _ => ℝ) p (-1)

theorem rowDot_hom (A : QMat ℝ d) (p : VecN ℝ d) (k : Nat) :
    rowDot A (hom p) k = dotProduct (fun c : Fin d => A c.castSucc k) p - A (Fin.last d) k := by
  unfold rowDot hom
  rw [Fin.sum_univ_castSucc]
  simp [dotProduct, sub_eq_add_neg]

/-- Error function of a solver: sum of squares of the used rows. -/
noncomputable def qerr (q : Qef ℝ d) (p : VecN ℝ d) : ℝ := ∑ k ∈ Finset.range q.usedRows, rowDot q.A (hom p) k ^ 2

theorem foldl_sum_range (f : Nat → ℝ) (n : Nat) : (List.range n).foldl (fun (e : ℝ) (i : Nat) => e + f i * f i) 0 =
    ∑ k ∈ Finset.range n, f k ^ 2 := by
  induction n with
  | zero => simp
  | succ n ih =>
    rw [List.range_succ, List.foldl_append, ih, Finset.sum_range_succ]
    simp [pow_two]

theorem eval_eq {M : Nat} (q : Qef ℝ d) (h : q.usedRows ≤ M) (p : VecN ℝ d) : q.eval M p = some (qerr q p) := by
  unfold Qef.eval qerr
  rw [if_pos h]
  congr 1
  simp only [rowDot_hom, dotN_real]
  exact foldl_sum_range (fun i => dotProduct (fun c : Fin d => q.A c.castSucc i) p - q.A (Fin.last d) i) q.usedRows

/-- Invariant of a solver: used rows fit the buffer; with fewer rows than the compressed matrix the rest is zero. -/
structure QInv (M : Nat) (q : Qef ℝ d) : Prop where
  rows : q.usedRows ≤ M
  zero : q.usedRows < d + 1 → ∀ j k, q.usedRows ≤ k → q.A j k = 0

theorem compress_spec {M : Nat} {tiny : ℝ} (ht : 0 < tiny) {q q' : Qef ℝ d} (hq : QInv M q)
    (hc : CompressClean tiny q) (h : q.compressMatrix M tiny = some q') :
    QInv M q' ∧ q'.usedRows = d + 1 ∧ (∀ p, qerr q' p = qerr q p) ∧ (∀ (j : Fin (d + 1)) (k : Nat), (j : Nat) < k → k < d + 1 → q'.A j k = 0) ∧
    (∀ x, ∑ k ∈ Finset.range (d + 1), rowDot q'.A x k ^ 2 = ∑ k ∈ Finset.range q.usedRows, rowDot q.A x k ^ 2) ∧
    q' = { q with A := q'.A, usedRows := d + 1 } := by
  unfold Qef.compressMatrix householder at h
  split at h
  swap
  · simp at h
  rename_i hM
  simp only [Option.bind_eq_bind, Option.bind_some, Option.some.injEq] at h
  have key := fold_hh ht (used := q.usedRows) (d + 1) 0 (by omega) q.A (by intro j hj; omega) (by rw [List.drop_zero]; exact hc)
  simp only [List.drop_zero] at key
  obtain ⟨k1, k2⟩ := key
  have hz : ∀ (j : Fin (d + 1)) (k : Nat), (j : Nat) < k → k < d + 1 →
      (List.finRange (d + 1)).foldl (hhStep tiny q.usedRows) q.A j k = 0 := by
    intro j k h1 h2
    by_cases hk : k < q.usedRows
    · exact k1 j k h1 hk
    · rw [fold_row _ _ (by omega)]
      exact hq.zero (by omega) j k (by omega)
  have hform : ∀ x, ∑ k ∈ Finset.range (d + 1),
        rowDot ((List.finRange (d + 1)).foldl (hhStep tiny q.usedRows) q.A) x k ^ 2 =
      ∑ k ∈ Finset.range q.usedRows, rowDot q.A x k ^ 2 := by
    intro x
    rw [← k2 x]
    rcases Nat.le_total q.usedRows (d + 1) with hle | hle
    · rw [← Finset.sum_range_add_sum_Ico _ hle]
      have : ∀ k ∈ Finset.Ico q.usedRows (d + 1),
          rowDot ((List.finRange (d + 1)).foldl (hhStep tiny q.usedRows) q.A) x k ^ 2 = 0 := by
        intro k hk
        have hk := Finset.mem_Ico.1 hk
        unfold rowDot
        rw [Finset.sum_eq_zero]
        · simp
        · intro j _
          rw [fold_row _ _ hk.1, hq.zero (by omega) j k hk.1, zero_mul]
      rw [Finset.sum_eq_zero this, add_zero]
    · rw [← Finset.sum_range_add_sum_Ico _ hle]
      have : ∀ k ∈ Finset.Ico (d + 1) q.usedRows,
          rowDot ((List.finRange (d + 1)).foldl (hhStep tiny q.usedRows) q.A) x k ^ 2 = 0 := by
        intro k hk
        have hk := Finset.mem_Ico.1 hk
        unfold rowDot
        rw [Finset.sum_eq_zero]
        · simp
        · intro j _
          rw [k1 j k (by omega) hk.2, zero_mul]
      rw [Finset.sum_eq_zero this, add_zero]
  subst h
  refine ⟨⟨hM.2, ?_⟩, rfl, ?_, hz, hform, rfl⟩
  · intro hlt; simp at hlt
  · intro p
    exact hform (hom p)

theorem rowDot_congr {A B : QMat ℝ d} {k : Nat} (h : ∀ j, A j k = B j k) (x : Fin (d + 1) → ℝ) :
    rowDot A x k = rowDot B x k := by
  unfold rowDot
  exact Finset.sum_congr rfl fun j _ => by rw [h j]

theorem rowDot_planeErr (pt n p : VecN ℝ d) :
    (∑ j, (Fin.snoc (α := fun _ => ℝ) n (dotProduct n pt) : Fin (d + 1) → ℝ) j * hom p j) ^ 2 = planeErr pt n p := by
  rw [Fin.sum_univ_castSucc]
  simp only [Fin.snoc_castSucc, Fin.snoc_last, hom, planeErr, dotProduct]
  congr 1
  rw [mul_neg_one, ← sub_eq_add_neg, ← Finset.sum_sub_distrib]
  exact Finset.sum_congr rfl fun i _ => by ring

theorem addPlane_spec {M : Nat} {tiny : ℝ} (ht : 0 < tiny) (hM : d + 1 < M) {q : Qef ℝ d} (hq : QInv M q)
    (hc : q.usedRows = M → CompressClean tiny q) (pt n : VecN ℝ d) :
    ∃ q', q.addPlane M tiny pt n = some q' ∧ QInv M q' ∧ (∀ p, qerr q' p = qerr q p + planeErr pt n p) ∧
      q'.pointsSum = q.pointsSum + pt ∧ q'.pointsCount = u32 (q.pointsCount + 1) ∧ q'.featureDim = q.featureDim ∧
      q'.pinvTolerance = q.pinvTolerance ∧ q'.jacobiTolerance = q.jacobiTolerance ∧
      q'.maxJacobiIters = q.maxJacobiIters ∧ q'.fast = q.fast := by
  -- the solver after the optional compression
  obtain ⟨q1, h1, i1, e1, r1, f1⟩ : ∃ q1, q.roomForPlane M tiny = some q1 ∧
      QInv M q1 ∧ (∀ p, qerr q1 p = qerr q p) ∧ q1.usedRows < M ∧
      q1 = { q with A := q1.A, usedRows := q1.usedRows } := by
    unfold Qef.roomForPlane
    by_cases hu : q.usedRows = M
    · rw [if_pos hu]
      obtain ⟨A, hA⟩ := compress_some (tiny := tiny) (by omega : d + 1 ≤ M) hq.rows
      obtain ⟨a1, a2, a3, a4, a5, a6⟩ := compress_spec ht hq (hc hu) hA
      exact ⟨_, hA, a1, a3, hM, rfl⟩
    · rw [if_neg hu]
      have := hq.rows
      exact ⟨q, rfl, hq, fun _ => rfl, by omega, rfl⟩
  unfold Qef.addPlane
  simp only [h1, Option.bind_eq_bind, Option.bind_some, writeRow_some r1]
  have p1 : q1.pointsSum = q.pointsSum := by rw [f1]
  have p2 : q1.pointsCount = q.pointsCount := by rw [f1]
  have p3 : q1.featureDim = q.featureDim := by rw [f1]
  have p4 : q1.pinvTolerance = q.pinvTolerance := by rw [f1]
  have p5 : q1.jacobiTolerance = q.jacobiTolerance := by rw [f1]
  have p6 : q1.maxJacobiIters = q.maxJacobiIters := by rw [f1]
  have p7 : q1.fast = q.fast := by rw [f1]
  refine ⟨_, rfl, ⟨r1, ?_⟩, ?_, ?_, ?_, p3, p4, p5, p6, p7⟩
  · intro hlt j k hk
    dsimp only at hlt hk ⊢
    rw [if_neg (by omega)]
    exact i1.zero (by omega) j k (by omega)
  · intro p
    rw [← e1 p]
    unfold qerr
    dsimp only
    rw [Finset.sum_range_succ]
    congr 1
    · apply Finset.sum_congr rfl
      intro k hk
      have := Finset.mem_range.1 hk
      congr 1
      apply rowDot_congr
      intro j
      rw [if_neg (by omega)]
    · unfold rowDot
      simp only [if_true, dotN_real]
      exact rowDot_planeErr pt n p
  · show q1.pointsSum + pt = _
    rw [p1]
  · show u32 (q1.pointsCount + 1) = _
    rw [p2]

theorem merge_spec {M : Nat} {tiny : ℝ} (ht : 0 < tiny) (hM : 2 * (d + 1) ≤ M) {q : Qef ℝ d} (hq : QInv M q)
    (hc : M - (d + 1) < q.usedRows → CompressClean tiny q) (s : QState ℝ d) :
    ∃ q', q.merge M tiny s = some q' ∧ QInv M q' ∧ (∀ p, qerr q' p = qerr q p + stateErr s p) ∧
      massOf q' = (massOf q).combine (stateMass s) ∧
      q'.pinvTolerance = q.pinvTolerance ∧ q'.jacobiTolerance = q.jacobiTolerance ∧
      q'.maxJacobiIters = q.maxJacobiIters ∧ q'.fast = q.fast := by
  have hm := mergeMass_eq q s
  set q0 := q.mergeMass s with hq0
  have hA0 : q0.A = q.A := by rw [hm]
  have hu0 : q0.usedRows = q.usedRows := by rw [hm]
  have hq0' : QInv M q0 := ⟨by rw [hu0]; exact hq.rows, by rw [hu0, hA0]; exact hq.zero⟩
  have he0 : ∀ p, qerr q0 p = qerr q p := by intro p; unfold qerr; rw [hu0, hA0]
  obtain ⟨q1, h1, i1, e1, r1, f1⟩ : ∃ q1,
      q0.roomForMerge M tiny = some q1 ∧
      QInv M q1 ∧ (∀ p, qerr q1 p = qerr q p) ∧ q1.usedRows + (d + 1) ≤ M ∧
      q1 = { q0 with A := q1.A, usedRows := q1.usedRows } := by
    unfold Qef.roomForMerge
    by_cases hu : (q0.usedRows : Int) > (M : Int) - (d + 1 : Nat)
    · rw [if_pos hu]
      obtain ⟨A, hA⟩ := compress_some (tiny := tiny) (by omega : d + 1 ≤ M) hq0'.rows
      have hcc : CompressClean tiny q0 := by
        have := hc (by omega)
        unfold CompressClean at this ⊢
        rwa [hu0, hA0]
      obtain ⟨a1, a2, a3, a4, a5, a6⟩ := compress_spec ht hq0' hcc hA
      exact ⟨_, hA, a1, fun p => by rw [a3 p, he0 p], by show d + 1 + (d + 1) ≤ M; omega, rfl⟩
    · rw [if_neg hu]
      exact ⟨q0, rfl, hq0', he0, by omega, rfl⟩
  have hrun : q.merge M tiny s = some { q1 with
      A := fun c r => if h : q1.usedRows ≤ r ∧ r - q1.usedRows < d + 1 then
        (if c < ⟨r - q1.usedRows, h.2⟩ then 0 else s.a ⟨r - q1.usedRows, h.2⟩ c) else q1.A c r,
      usedRows := q1.usedRows + (d + 1) } := by
    unfold Qef.merge
    simp only [← hq0, h1, Option.bind_eq_bind, Option.bind_some]
    rw [merge_rows s.a q1.usedRows r1 q1.A]
    rfl
  refine ⟨_, hrun, ⟨r1, ?_⟩, ?_, ?_, ?_, ?_, ?_, ?_⟩
  · intro hlt; dsimp only at hlt; omega
  · intro p
    rw [← e1 p]
    unfold qerr
    dsimp only
    rw [Finset.sum_range_add]
    congr 1
    · apply Finset.sum_congr rfl
      intro k hk
      have := Finset.mem_range.1 hk
      congr 1
      apply rowDot_congr
      intro j
      rw [dif_neg (by omega)]
    · unfold stateErr
      rw [← Fin.sum_univ_eq_sum_range
        (fun k => rowDot (fun c r => if h : q1.usedRows ≤ r ∧ r - q1.usedRows < d + 1 then
        (if c < ⟨r - q1.usedRows, h.2⟩ then 0 else s.a ⟨r - q1.usedRows, h.2⟩ c) else q1.A c r) (hom p)
          (q1.usedRows + k) ^ 2) (d + 1)]
      apply Finset.sum_congr rfl
      intro r _
      rw [rowDot_hom]
      have hr : q1.usedRows ≤ q1.usedRows + (r : Nat) ∧ q1.usedRows + (r : Nat) - q1.usedRows < d + 1 :=
        ⟨by omega, by omega⟩
      have hfin : (⟨q1.usedRows + (r : Nat) - q1.usedRows, hr.2⟩ : Fin (d + 1)) = r := Fin.ext (by simp)
      simp only [dif_pos hr, hfin]
      rw [if_neg (not_lt.2 (Fin.le_last r))]
      rfl
  · rw [← mergeMass_mass q s, ← hq0]
    show massOf q1 = massOf q0
    rw [f1]; rfl
  · show q1.pinvTolerance = _
    rw [f1, hm]
  · show q1.jacobiTolerance = _
    rw [f1, hm]
  · show q1.maxJacobiIters = _
    rw [f1, hm]
  · show q1.fast = _
    rw [f1, hm]

/-- The state returned by a solver describes the solver's own error function. -/
theorem state_spec {M bits : Nat} {tiny : ℝ} (ht : 0 < tiny) (hM : d + 1 ≤ M) {q : Qef ℝ d} (hq : QInv M q)
    (hc : CompressClean tiny q) (hcnt : q.pointsCount < 2 ^ bits) :
    ∃ q' s, q.state M bits tiny = some (q', s) ∧ QInv M q' ∧ (∀ p, qerr q' p = qerr q p) ∧
      (∀ p, stateErr s p = qerr q p) ∧ stateMass s = massOf q ∧ massOf q' = massOf q := by
  obtain ⟨A, hA⟩ := compress_some (tiny := tiny) hM hq.rows
  obtain ⟨a1, a2, a3, a4, a5, a6⟩ := compress_spec ht hq hc hA
  unfold Qef.state
  simp only [hA, Option.bind_eq_bind, Option.bind_some]
  rw [if_pos hcnt]
  refine ⟨_, _, rfl, a1, a3, ?_, rfl, rfl⟩
  intro p
  rw [← a3 p]
  unfold qerr stateErr
  dsimp only
  rw [← Fin.sum_univ_eq_sum_range (fun k => rowDot A (hom p) k ^ 2) (d + 1)]
  apply Finset.sum_congr rfl
  intro r _
  rw [rowDot_hom, if_neg (not_lt.2 (Fin.le_last r))]
  congr 2
  unfold dotProduct
  apply Finset.sum_congr rfl
  intro c _
  by_cases hcr : c.castSucc < r
  · rw [if_pos hcr]
    have := a4 c.castSucc r hcr r.isLt
    dsimp only at this ⊢
    rw [this]
  · simp only [if_neg hcr]

end Isomesh
