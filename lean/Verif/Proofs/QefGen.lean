import Verif.Spec.Qef
import Mathlib.Data.Fin.VecNotation

/-! Facts on the QEF solvers that hold for any arithmetic. -/

namespace Isomesh

open Spec

set_option linter.unusedSectionVars false
variable {K : Type} [Add K] [Sub K] [Mul K] [Div K] [Neg K] [Zero K] [One K] [OfNat K 2] [OfScientific K] [NatCast K] [IntCast K]
  [Fabs K] [Elem K] [LinearOrder K] [RoundedLaws K]

variable {d : Nat}

theorem compress_some {M : Nat} {tiny : K} (hM : d + 1 ≤ M) {q : Qef K d} (h : q.usedRows ≤ M) :
    ∃ A, q.compressMatrix M tiny = some { q with A := A, usedRows := d + 1 } := by
  unfold Qef.compressMatrix householder
  rw [if_pos ⟨h, hM⟩]
  exact ⟨_, rfl⟩

theorem writeRow_some {L : Type} {M : Nat} {A : QMat L d} {id : Nat} {row : Fin (d + 1) → L} (h : id < M) :
    Qef.writeRow M A id row = some (fun c r => if r = id then row c else A c r) := by
  unfold Qef.writeRow; rw [if_pos h]

/-- Rows written by `merge`. -/
theorem merge_rows {M : Nat} (a : Fin (d + 1) → Fin (d + 1) → K) (u : Nat) (hu : u + (d + 1) ≤ M) (A : QMat K d) :
    (List.finRange (d + 1)).foldlM (fun (A : QMat K d) (r : Fin (d + 1)) =>
      Qef.writeRow M A (u + r) (fun c => if c < r then 0 else a r c)) A =
    some (fun c r => if h : u ≤ r ∧ r - u < d + 1 then
      (if c < ⟨r - u, h.2⟩ then 0 else a ⟨r - u, h.2⟩ c) else A c r) := by
  have gen : ∀ n m (A : QMat K d), n + m = d + 1 →
      ((List.finRange (d + 1)).drop m).foldlM (fun (A : QMat K d) (r : Fin (d + 1)) =>
        Qef.writeRow M A (u + r) (fun c => if c < r then 0 else a r c)) A =
      some (fun c r => if h : u + m ≤ r ∧ r - u < d + 1 then
        (if c < ⟨r - u, h.2⟩ then 0 else a ⟨r - u, h.2⟩ c) else A c r) := by
    intro n
    induction n with
    | zero =>
      intro m A hnm
      have : (List.finRange (d + 1)).drop m = [] := List.drop_eq_nil_of_le (by simp; omega)
      rw [this]
      show some A = _
      congr 1
      funext c r
      rw [dif_neg (by omega)]
    | succ n ih =>
      intro m A hnm
      have hm : m < d + 1 := by omega
      have hd : (List.finRange (d + 1)).drop m = ⟨m, hm⟩ :: (List.finRange (d + 1)).drop (m + 1) := by
        rw [List.drop_eq_getElem_cons (by simpa using hm)]
        simp
      rw [hd, List.foldlM_cons, writeRow_some (by simp; omega)]
      simp only [Option.bind_eq_bind, Option.bind_some]
      rw [ih (m + 1) _ (by omega)]
      congr 1
      funext c r
      by_cases h1 : u + (m + 1) ≤ r ∧ r - u < d + 1
      · rw [dif_pos h1, dif_pos ⟨by omega, h1.2⟩]
      · rw [dif_neg h1]
        by_cases h2 : r = u + m
        · subst h2
          rw [if_pos rfl, dif_pos ⟨by omega, by omega⟩]
          simp only [Nat.add_sub_cancel_left]
        · rw [if_neg h2, dif_neg (by omega)]
  have := gen (d + 1) 0 A (by omega)
  simpa using this

theorem mergeMass_eq (q : Qef K d) (s : QState K d) : q.mergeMass s = { q with
    featureDim := (q.mergeMass s).featureDim, pointsSum := (q.mergeMass s).pointsSum,
    pointsCount := (q.mergeMass s).pointsCount } := by
  unfold Qef.mergeMass
  split
  · rfl
  · split <;> rfl

theorem mergeMass_mass (q : Qef K d) (s : QState K d) : massOf (q.mergeMass s) = (massOf q).combine (stateMass s) := by
  unfold Qef.mergeMass Mass.combine massOf stateMass
  dsimp only
  by_cases h1 : s.dim > q.featureDim
  · simp [h1]
  · by_cases h2 : s.dim = q.featureDim
    · simp [h2, u32]
    · have : s.dim < q.featureDim := by omega
      simp [h1, h2, this]

theorem solve_cases {M : Nat} {tiny : K} (hM : d + 2 + 1 ≤ M) {q : Qef K (d + 2)} (hq : q.usedRows ≤ M)
    (lo hi : VecN K (d + 2)) :
    (q.solve M tiny lo hi = none ∧ (q.pointsCount = 0 ∨ q.pinvTolerance ≤ 0)) ∨
    ∃ A f x, q.solve M tiny lo hi = some ({ q with A := A, usedRows := d + 2 + 1, featureDim := f }, x) ∧
      q.compressMatrix M tiny = some { q with A := A, usedRows := d + 2 + 1 } := by
  obtain ⟨A, hA⟩ := compress_some (tiny := tiny) hM hq
  unfold Qef.solve
  simp only [hA, Option.bind_eq_bind, Option.bind_some]
  split
  · rename_i h
    left
    refine ⟨rfl, ?_⟩
    rcases h with h | ⟨i, h1, h2⟩
    · exact Or.inl h
    · right; rw [h2] at h1; simpa [RoundedLaws.fabs_zero] using h1
  · exact Or.inr ⟨A, _, _, rfl, rfl⟩

/-- Rows stay inside the buffer whatever the values are. -/
theorem apply_rows {M bits : Nat} {tiny : K} (hM : 2 * (d + 2 + 1) ≤ M) {q : Qef K (d + 2)} (hq : q.usedRows ≤ M)
    (op : QefOp K (d + 2)) :
    (∀ q', op.apply M bits tiny q = some q' → q'.usedRows ≤ M) ∧
    (op.apply M bits tiny q = none → (op = .state ∧ 2 ^ bits ≤ q.pointsCount) ∨
      (∃ lo hi, op = .solve lo hi ∧ (q.pointsCount = 0 ∨ q.pinvTolerance ≤ 0))) := by
  obtain ⟨A, hA⟩ := compress_some (tiny := tiny) (by omega : d + 2 + 1 ≤ M) hq
  cases op with
  | reset => simp [QefOp.apply, Qef.reset]
  | addPlane pt n =>
    have : ∃ q1, q.roomForPlane M tiny = some q1 ∧ q1.usedRows < M := by
      unfold Qef.roomForPlane
      by_cases hu : q.usedRows = M
      · rw [if_pos hu]
        exact ⟨_, hA, by show d + 2 + 1 < M; omega⟩
      · rw [if_neg hu]
        exact ⟨q, rfl, by omega⟩
    obtain ⟨q1, h1, h2⟩ := this
    simp only [QefOp.apply, Qef.addPlane, h1, Option.bind_eq_bind, Option.bind_some, writeRow_some h2]
    simp
    omega
  | merge s =>
    have hm := mergeMass_eq q s
    have hu0 : (q.mergeMass s).usedRows = q.usedRows := by rw [hm]
    have : ∃ q1, (q.mergeMass s).roomForMerge M tiny = some q1 ∧ q1.usedRows + (d + 2 + 1) ≤ M := by
      unfold Qef.roomForMerge
      by_cases hu : ((q.mergeMass s).usedRows : Int) > (M : Int) - (d + 2 + 1 : Nat)
      · rw [if_pos hu]
        obtain ⟨B, hB⟩ := compress_some (tiny := tiny) (q := q.mergeMass s) (by omega : d + 2 + 1 ≤ M)
          (by rw [hu0]; exact hq)
        exact ⟨_, hB, by show d + 2 + 1 + (d + 2 + 1) ≤ M; omega⟩
      · rw [if_neg hu]
        exact ⟨_, rfl, by omega⟩
    obtain ⟨q1, h1, h2⟩ := this
    simp only [QefOp.apply, Qef.merge, h1, Option.bind_eq_bind, Option.bind_some]
    rw [merge_rows s.a q1.usedRows h2 q1.A]
    simp
    omega
  | state =>
    simp only [QefOp.apply, Qef.state, hA, Option.bind_eq_bind, Option.bind_some]
    by_cases hcnt : q.pointsCount < 2 ^ bits
    · rw [if_pos hcnt]
      simp
      omega
    · rw [if_neg hcnt]
      simp
      omega
  | solve lo hi =>
    rcases solve_cases (tiny := tiny) (by omega : d + 2 + 1 ≤ M) hq lo hi with hn | ⟨A, f, x, h1, hA⟩
    · simp [QefOp.apply, hn.1, hn.2]
    · simp only [QefOp.apply, h1]
      simp
      omega
  | setPinvTolerance v => simpa [QefOp.apply, Qef.setPinvTolerance] using hq
  | setJacobiTolerance v => simpa [QefOp.apply, Qef.setJacobiTolerance] using hq
  | setMaxJacobiIters v => simpa [QefOp.apply, Qef.setMaxJacobiIters] using hq
  | useFastFormulas v => simpa [QefOp.apply, Qef.useFastFormulas] using hq

theorem run_rows {M bits : Nat} {tiny : K} (hM : 2 * (d + 2 + 1) ≤ M) (ops : List (QefOp K (d + 2))) {q q' : Qef K (d + 2)}
    (hq : q.usedRows ≤ M) (h : runOps M bits tiny q ops = some q') : q'.usedRows ≤ M := by
  induction ops generalizing q with
  | nil =>
    simp only [runOps, List.foldlM_nil, Option.pure_def, Option.some.injEq] at h
    subst h
    exact hq
  | cons op ops ih =>
    simp only [runOps, List.foldlM_cons, Option.bind_eq_bind, Option.bind_eq_some_iff] at h
    obtain ⟨q1, h1, h2⟩ := h
    exact ih ((apply_rows hM hq op).1 q1 h1) h2

theorem eval_some {M : Nat} {q : Qef K d} (h : q.usedRows ≤ M) (p : VecN K d) : ∃ e, q.eval M p = some e := by
  unfold Qef.eval
  rw [if_pos h]
  exact ⟨_, rfl⟩

theorem eval_nonneg {M : Nat} {q : Qef K d} {p : VecN K d} {e : K} (h : q.eval M p = some e) : 0 ≤ e := by
  have key : ∀ (f : Nat → K) (l : List Nat) (a : K), 0 ≤ a → 0 ≤ l.foldl (fun e i => e + f i * f i) a := by
    intro f l
    induction l with
    | nil => exact fun a h => h
    | cons i l ih => exact fun a h => ih _ (RoundedLaws.sq_nonneg _ _ h)
  unfold Qef.eval at h
  split at h
  · rw [← Option.some.inj h]
    exact key (fun i => dotN (fun c : Fin d => q.A c.castSucc i) p - q.A (Fin.last d) i) _ _ le_rfl
  · cases h

theorem clamp_mem {x lo hi : VecN K d} (h : ∀ i, lo i ≤ hi i) (i : Fin d) :
    lo i ≤ Qef.clampV x lo hi i ∧ Qef.clampV x lo hi i ≤ hi i :=
  ⟨le_min (le_max_right _ _) (h i), min_le_right _ _⟩

theorem clamp_id {x lo hi : VecN K d} (h : ∀ i, lo i ≤ x i ∧ x i ≤ hi i) : Qef.clampV x lo hi = x := by
  funext i
  unfold Qef.clampV
  rw [max_eq_left (h i).1, min_eq_left (h i).2]

theorem solve_gen {M : Nat} {tiny : K} {q q' : Qef K (d + 2)} {lo hi x : VecN K (d + 2)}
    (h : q.solve M tiny lo hi = some (q', x)) : ∃ q1, q.compressMatrix M tiny = some q1 ∧ q1.pointsCount ≠ 0 ∧
      q'.A = q1.A ∧ q'.usedRows = q1.usedRows ∧ q'.pointsSum = q1.pointsSum ∧ q'.pointsCount = q1.pointsCount ∧
      q'.pinvTolerance = q1.pinvTolerance ∧ q'.jacobiTolerance = q1.jacobiTolerance ∧
      q'.maxJacobiIters = q1.maxJacobiIters ∧ q'.fast = q1.fast ∧ x = Qef.clampV q1.unclamped lo hi ∧
      q'.featureDim = Qef.featureDimOf q1.pinvTolerance
        (jacobi (fun c r => (mulM q1.leftMat.transpose q1.leftMat) r c) q1.jacobiTolerance q1.maxJacobiIters q1.fast).1 := by
  simp only [Qef.solve, Option.bind_eq_bind, Option.bind_eq_some_iff] at h
  obtain ⟨q1, h1, h2⟩ := h
  split at h2
  · simp at h2
  · rename_i hc
    simp only [Option.some.injEq, Prod.mk.injEq] at h2
    obtain ⟨rfl, rfl⟩ := h2
    exact ⟨q1, h1, fun hh => hc (Or.inl hh), rfl, rfl, rfl, rfl, rfl, rfl, rfl, rfl, rfl, rfl⟩

end Isomesh
