import Verif.Proofs.Qef
import Mathlib.Tactic.NormNum
import Mathlib.Data.Fin.VecNotation

/-! Properties C35 - C37 and their 4D counterparts (C39). -/

namespace Isomesh

open Spec Finset

variable {d : Nat}

/-! ### Generic lemmas on histories -/

theorem apply_spec {M bits : Nat} {tiny : ℝ} (ht : 0 < tiny) (hM : 2 * (d + 2 + 1) ≤ M) {q q' : Qef ℝ (d + 2)}
    (hq : QInv M q) {op : QefOp ℝ (d + 2)} (hc : op.Clean M tiny q) (h : op.apply M bits tiny q = some q') :
    QInv M q' ∧ ∀ p, qerr q' p = op.addTo p (qerr q p) := by
  cases op with
  | reset =>
    simp only [QefOp.apply, Option.some.injEq] at h
    subst h
    refine ⟨⟨Nat.zero_le _, fun _ _ _ _ => rfl⟩, fun p => ?_⟩
    simp [qerr, Qef.reset, QefOp.addTo]
  | addPlane pt n =>
    obtain ⟨q1, h1, i1, e1, _⟩ := addPlane_spec ht (by omega) hq hc pt n
    simp only [QefOp.apply, h1, Option.some.injEq] at h
    subst h
    exact ⟨i1, e1⟩
  | merge s =>
    obtain ⟨q1, h1, i1, e1, _⟩ := merge_spec ht hM hq hc s
    simp only [QefOp.apply, h1, Option.some.injEq] at h
    subst h
    exact ⟨i1, e1⟩
  | state =>
    by_cases hcnt : q.pointsCount < 2 ^ bits
    · obtain ⟨q1, s, h1, i1, e1, _⟩ := state_spec ht (by omega) hq hc hcnt
      simp only [QefOp.apply, h1, Option.map_some, Option.some.injEq] at h
      subst h
      exact ⟨i1, e1⟩
    · obtain ⟨A, hA⟩ := compress_some (tiny := tiny) (by omega : d + 2 + 1 ≤ M) hq.rows
      simp only [QefOp.apply, Qef.state, hA, Option.bind_eq_bind, Option.bind_some] at h
      rw [if_neg hcnt] at h
      simp at h
  | solve lo hi =>
    rcases solve_cases (tiny := tiny) (by omega : d + 2 + 1 ≤ M) hq.rows lo hi with hn | ⟨A, f, x, h1, hA⟩
    · simp [QefOp.apply, hn.1] at h
    · obtain ⟨a1, a2, a3, a4, a5, a6⟩ := compress_spec ht hq hc hA
      simp only [QefOp.apply, h1, Option.map_some, Option.some.injEq] at h
      subst h
      exact ⟨⟨a1.rows, a1.zero⟩, a3⟩
  | setPinvTolerance v =>
    simp only [QefOp.apply, Option.some.injEq] at h
    subst h
    exact ⟨⟨hq.rows, hq.zero⟩, fun _ => rfl⟩
  | setJacobiTolerance v =>
    simp only [QefOp.apply, Option.some.injEq] at h
    subst h
    exact ⟨⟨hq.rows, hq.zero⟩, fun _ => rfl⟩
  | setMaxJacobiIters v =>
    simp only [QefOp.apply, Option.some.injEq] at h
    subst h
    exact ⟨⟨hq.rows, hq.zero⟩, fun _ => rfl⟩
  | useFastFormulas v =>
    simp only [QefOp.apply, Option.some.injEq] at h
    subst h
    exact ⟨⟨hq.rows, hq.zero⟩, fun _ => rfl⟩

theorem run_spec {M bits : Nat} {tiny : ℝ} (ht : 0 < tiny) (hM : 2 * (d + 2 + 1) ≤ M) (ops : List (QefOp ℝ (d + 2)))
    {q q' : Qef ℝ (d + 2)} (hq : QInv M q) (hc : CleanRun M bits tiny q ops) (h : runOps M bits tiny q ops = some q') :
    QInv M q' ∧ ∀ p, qerr q' p = ops.foldl (fun e op => op.addTo p e) (qerr q p) := by
  induction ops generalizing q with
  | nil =>
    simp only [runOps, List.foldlM_nil, Option.pure_def, Option.some.injEq] at h
    subst h
    exact ⟨hq, fun _ => rfl⟩
  | cons op ops ih =>
    simp only [runOps, List.foldlM_cons, Option.bind_eq_bind, Option.bind_eq_some_iff] at h
    obtain ⟨q1, h1, h2⟩ := h
    obtain ⟨i1, e1⟩ := apply_spec ht hM hq hc.1 h1
    obtain ⟨i2, e2⟩ := ih i1 (hc.2 q1 h1) h2
    refine ⟨i2, fun p => ?_⟩
    rw [e2 p, e1 p, List.foldl_cons]

/-! ### The threshold hypothesis can always be met -/

theorem hhStep_congr {t t' : ℝ} {used : Nat} {A : QMat ℝ d} {i : Fin (d + 1)}
    (h : hhNorm used A i < t ↔ hhNorm used A i < t') : hhStep t used A i = hhStep t' used A i := by
  have hv : hhVec t used A i = hhVec t' used A i := by
    funext j
    unfold hhVec
    simp only [h]
  have hg : hhInvGamma t used A i = hhInvGamma t' used A i := by
    unfold hhInvGamma
    simp only [h, hv]
  unfold hhStep
  rw [hv, hg]

theorem noTiny_exists (used : Nat) (l : List (Fin (d + 1))) (A : QMat ℝ d) : ∃ δ : ℝ, 0 < δ ∧ ∀ t, 0 < t → t ≤ δ →
    NoTiny t used l A ∧ l.foldl (hhStep t used) A = l.foldl (hhStep δ used) A := by
  induction l generalizing A with
  | nil => exact ⟨1, one_pos, fun t _ _ => ⟨trivial, rfl⟩⟩
  | cons i l ih =>
    obtain ⟨δ1, h1, h1'⟩ : ∃ δ1 : ℝ, 0 < δ1 ∧ (hhNorm used A i = 0 ∨ δ1 ≤ hhNorm used A i) := by
      rcases (hhNorm_nonneg used A i).eq_or_lt with h | h
      · exact ⟨1, one_pos, Or.inl h.symm⟩
      · exact ⟨hhNorm used A i, h, Or.inr (le_refl _)⟩
    obtain ⟨δ2, h2, h2'⟩ := ih (hhStep δ1 used A i)
    have key : ∀ t, 0 < t → t ≤ δ1 → hhStep t used A i = hhStep δ1 used A i := by
      intro t ht htd
      apply hhStep_congr
      rcases h1' with h | h
      · rw [h]; exact ⟨fun _ => h1, fun _ => ht⟩
      · constructor
        · intro hh; exact absurd (lt_of_lt_of_le hh htd) (not_lt.2 h)
        · intro hh; exact absurd hh (not_lt.2 h)
    refine ⟨min δ1 δ2, lt_min h1 h2, fun t ht htd => ?_⟩
    have e1 := key t ht (le_trans htd (min_le_left _ _))
    have e2 := key (min δ1 δ2) (lt_min h1 h2) (min_le_left _ _)
    obtain ⟨a1, a2⟩ := h2' t ht (le_trans htd (min_le_right _ _))
    obtain ⟨b1, b2⟩ := h2' (min δ1 δ2) (lt_min h1 h2) (min_le_right _ _)
    refine ⟨⟨?_, ?_⟩, ?_⟩
    · rcases h1' with h | h
      · exact Or.inl h
      · exact Or.inr (le_trans (le_trans htd (min_le_left _ _)) h)
    · rw [e1]; exact a1
    · rw [List.foldl_cons, List.foldl_cons, e1, e2, a2, b2]

theorem compress_exists (M : Nat) (q : Qef ℝ d) : ∃ δ : ℝ, 0 < δ ∧ ∀ t, 0 < t → t ≤ δ →
    CompressClean t q ∧ q.compressMatrix M t = q.compressMatrix M δ := by
  obtain ⟨δ, h, h'⟩ := noTiny_exists q.usedRows (List.finRange (d + 1)) q.A
  refine ⟨δ, h, fun t ht htd => ?_⟩
  obtain ⟨a, b⟩ := h' t ht htd
  refine ⟨a, ?_⟩
  unfold Qef.compressMatrix householder
  rw [b]

theorem apply_exists (M bits : Nat) (q : Qef ℝ (d + 2)) (op : QefOp ℝ (d + 2)) : ∃ δ : ℝ, 0 < δ ∧ ∀ t, 0 < t → t ≤ δ →
    op.Clean M t q ∧ op.apply M bits t q = op.apply M bits δ q := by
  obtain ⟨δ, h, h'⟩ := compress_exists M q
  have hm : ∀ s, ∃ δ' : ℝ, 0 < δ' ∧ ∀ t, 0 < t → t ≤ δ' → CompressClean t q ∧
      (q.mergeMass s).compressMatrix M t = (q.mergeMass s).compressMatrix M δ' := by
    intro s
    obtain ⟨δ', g, g'⟩ := compress_exists M (q.mergeMass s)
    refine ⟨δ', g, fun t ht htd => ⟨?_, (g' t ht htd).2⟩⟩
    have := (g' t ht htd).1
    rw [mergeMass_eq] at this
    exact this
  cases op with
  | addPlane pt n =>
    refine ⟨δ, h, fun t ht htd => ⟨fun _ => (h' t ht htd).1, ?_⟩⟩
    simp only [QefOp.apply, Qef.addPlane, Qef.roomForPlane, (h' t ht htd).2, Option.bind_eq_bind]
  | merge s =>
    obtain ⟨δ', g, g'⟩ := hm s
    refine ⟨δ', g, fun t ht htd => ⟨fun _ => (g' t ht htd).1, ?_⟩⟩
    simp only [QefOp.apply, Qef.merge, Qef.roomForMerge, (g' t ht htd).2, Option.bind_eq_bind]
  | state =>
    refine ⟨δ, h, fun t ht htd => ⟨(h' t ht htd).1, ?_⟩⟩
    simp only [QefOp.apply, Qef.state, (h' t ht htd).2, Option.bind_eq_bind]
  | solve lo hi =>
    refine ⟨δ, h, fun t ht htd => ⟨(h' t ht htd).1, ?_⟩⟩
    simp only [QefOp.apply, Qef.solve, (h' t ht htd).2, Option.bind_eq_bind]
  | reset => exact ⟨1, one_pos, fun _ _ _ => ⟨trivial, rfl⟩⟩
  | setPinvTolerance v => exact ⟨1, one_pos, fun _ _ _ => ⟨trivial, rfl⟩⟩
  | setJacobiTolerance v => exact ⟨1, one_pos, fun _ _ _ => ⟨trivial, rfl⟩⟩
  | setMaxJacobiIters v => exact ⟨1, one_pos, fun _ _ _ => ⟨trivial, rfl⟩⟩
  | useFastFormulas v => exact ⟨1, one_pos, fun _ _ _ => ⟨trivial, rfl⟩⟩

theorem cleanRun_exists (M bits : Nat) (ops : List (QefOp ℝ (d + 2))) (q : Qef ℝ (d + 2)) : ∃ δ : ℝ, 0 < δ ∧
    ∀ t, 0 < t → t ≤ δ → CleanRun M bits t q ops := by
  induction ops generalizing q with
  | nil => exact ⟨1, one_pos, fun _ _ _ => trivial⟩
  | cons op ops ih =>
    obtain ⟨δ1, h1, h1'⟩ := apply_exists M bits q op
    cases hq : op.apply M bits δ1 q with
    | none =>
      refine ⟨δ1, h1, fun t ht htd => ⟨(h1' t ht htd).1, fun q' hq' => ?_⟩⟩
      rw [(h1' t ht htd).2, hq] at hq'
      simp at hq'
    | some q1 =>
      obtain ⟨δ2, h2, h2'⟩ := ih q1
      refine ⟨min δ1 δ2, lt_min h1 h2, fun t ht htd => ?_⟩
      have l1 := le_trans htd (min_le_left δ1 δ2)
      have l2 := le_trans htd (min_le_right δ1 δ2)
      refine ⟨(h1' t ht l1).1, fun q' hq' => ?_⟩
      rw [(h1' t ht l1).2, hq, Option.some.injEq] at hq'
      subst hq'
      exact h2' t ht l2

theorem new3_inv : QInv qef3Rows Qef.new3 := ⟨by simp [Qef.new3], fun _ _ _ _ => rfl⟩

theorem new4_inv : QInv qef4Rows Qef.new4 := ⟨by simp [Qef.new4], fun _ _ _ _ => rfl⟩

theorem new3_err (p : VecN ℝ 3) : qerr Qef.new3 p = 0 := by simp [qerr, Qef.new3]

theorem new4_err (p : VecN ℝ 4) : qerr Qef.new4 p = 0 := by simp [qerr, Qef.new4]

/-! ### C35 -/

/-- C35.  After any history of calls on a fresh 3D solver the error reported by `eval` at any point is the sum of the
squared plane distances (and of the errors of merged states) since the last `reset`, provided no compression met a
subcolumn with squared norm in `(0, tiny)`; `tiny` is `numeric_limits<float>::min ()`. -/
theorem C35_eval {tiny : ℝ} (ht : 0 < tiny) (ops : List (QefOp ℝ 3)) (hc : CleanRun qef3Rows 30 tiny Qef.new3 ops)
    {q : Qef ℝ 3} (h : runOps qef3Rows 30 tiny Qef.new3 ops = some q) (p : VecN ℝ 3) :
    q.eval qef3Rows p = some (expectedErr ops p) := by
  obtain ⟨i, e⟩ := run_spec ht (by simp [qef3Rows]) ops new3_inv hc h
  rw [eval_eq q i.rows, e p, new3_err]
  rfl

/-- C35.  The provision on subcolumns is met by every history if the threshold is small enough; so in the limit of exact
arithmetic `eval` is always the sum of squared distances. -/
theorem C35_eval_exact (ops : List (QefOp ℝ 3)) : ∃ δ : ℝ, 0 < δ ∧ ∀ tiny, 0 < tiny → tiny ≤ δ →
    ∀ q, runOps qef3Rows 30 tiny Qef.new3 ops = some q → ∀ p, q.eval qef3Rows p = some (expectedErr ops p) := by
  obtain ⟨δ, h, h'⟩ := cleanRun_exists qef3Rows 30 ops Qef.new3
  exact ⟨δ, h, fun t ht htd q hq p => C35_eval ht ops (h' t ht htd) hq p⟩

/-- Example history: ten planes (so the eight-row buffer is compressed), the last three calls after a `state`. -/
noncomputable def demoOps : List (QefOp ℝ 3) :=
  List.replicate 10 (.addPlane ![1, 2, 3] ![0, 1, 0]) ++ [.state, .addPlane ![1, 2, 3] ![1, 0, 0]]

/-- The example history is executed without failure and has a non-zero expected error. -/
theorem demo_qef : (∃ q, runOps qef3Rows 30 1 Qef.new3 demoOps = some q) ∧ expectedErr demoOps ![0, 0, 0] = 41 := by
  constructor
  · have key : ∀ (n : Nat) (q : Qef ℝ 3), q.usedRows ≤ 8 → ∃ q', runOps qef3Rows 30 1 q
        (List.replicate n (.addPlane ![1, 2, 3] ![0, 1, 0])) = some q' ∧ q'.usedRows ≤ 8 ∧
          q'.pointsCount ≤ q.pointsCount + n := by
      intro n
      induction n with
      | zero => intro q hq; exact ⟨q, rfl, hq, le_refl _⟩
      | succ n ih =>
        intro q hq
        obtain ⟨r1, r2⟩ := apply_rows (M := qef3Rows) (bits := 30) (tiny := 1) (by simp [qef3Rows]) (q := q) hq
          (.addPlane ![1, 2, 3] ![0, 1, 0])
        have hne : QefOp.apply qef3Rows 30 1 q (.addPlane ![1, 2, 3] ![0, 1, 0]) ≠ none := by
          intro hn; simpa using r2 hn
        obtain ⟨q1, h1⟩ := Option.ne_none_iff_exists'.1 hne
        have hcnt : q1.pointsCount ≤ q.pointsCount + 1 := by
          have hmass : q1.pointsCount = u32 (q.pointsCount + 1) := by
            simp only [QefOp.apply, Qef.addPlane, Option.bind_eq_bind, Option.bind_eq_some_iff] at h1
            obtain ⟨q2, hq2, A, _, hq1⟩ := h1
            have : q2.pointsCount = q.pointsCount := by
              unfold Qef.roomForPlane at hq2
              split at hq2
              · obtain ⟨B, hB⟩ := compress_some (tiny := 1) (by simp [qef3Rows] : 3 + 1 ≤ qef3Rows) (q := q) hq
                rw [hB, Option.some.injEq] at hq2
                subst hq2; rfl
              · simp only [Option.some.injEq] at hq2; rw [hq2]
            simp only [Option.some.injEq] at hq1
            subst hq1
            show u32 (q2.pointsCount + 1) = _
            rw [this]
          rw [hmass]; unfold u32; exact Nat.mod_le _ _
        obtain ⟨q', h2, h3, h4⟩ := ih q1 (r1 q1 h1)
        refine ⟨q', ?_, h3, by omega⟩
        rw [List.replicate_succ]
        simp only [runOps, List.foldlM_cons, Option.bind_eq_bind, h1, Option.bind_some]
        exact h2
    obtain ⟨q1, h1, h2, h3⟩ := key 10 Qef.new3 (by simp [Qef.new3])
    have s1 := apply_rows (M := qef3Rows) (bits := 30) (tiny := 1) (by simp [qef3Rows]) (q := q1) h2 .state
    have hcount : q1.pointsCount ≤ 10 := by simpa [Qef.new3] using h3
    have hne : QefOp.apply qef3Rows 30 1 q1 .state ≠ none := by
      intro hn; have := s1.2 hn; simp at this; omega
    obtain ⟨q2, g2⟩ := Option.ne_none_iff_exists'.1 hne
    have hq2 : q2.usedRows ≤ qef3Rows := s1.1 q2 g2
    have s2 := apply_rows (M := qef3Rows) (bits := 30) (tiny := 1) (by simp [qef3Rows]) (q := q2) hq2
      (.addPlane ![1, 2, 3] ![1, 0, 0])
    have hne2 : QefOp.apply qef3Rows 30 1 q2 (.addPlane ![1, 2, 3] ![1, 0, 0]) ≠ none := by
      intro hn; simpa using s2.2 hn
    obtain ⟨q3, g3⟩ := Option.ne_none_iff_exists'.1 hne2
    refine ⟨q3, ?_⟩
    unfold runOps demoOps
    rw [List.foldlM_append]
    unfold runOps at h1
    rw [h1]
    simp only [Option.bind_eq_bind, Option.bind_some, List.foldlM_cons, g2, g3, List.foldlM_nil]
    rfl
  · simp [demoOps, expectedErr, QefOp.addTo, planeErr, Fin.sum_univ_succ, List.replicate]
    norm_num

/-! ### C36 -/

/-- C36.  Merging the state of solver 2 into solver 1 gives a solver whose error is the sum of both errors at every
point, and whose mass data are the combination of both (see `Mass.combine`). -/
theorem C36_merge {tiny : ℝ} (ht : 0 < tiny) (ops1 ops2 : List (QefOp ℝ 3)) {q1 q2 q2' : Qef ℝ 3} {s : QState ℝ 3}
    (h1 : runOps qef3Rows 30 tiny Qef.new3 ops1 = some q1) (c1 : CleanRun qef3Rows 30 tiny Qef.new3 ops1)
    (h2 : runOps qef3Rows 30 tiny Qef.new3 ops2 = some q2) (c2 : CleanRun qef3Rows 30 tiny Qef.new3 ops2)
    (hs : q2.state qef3Rows 30 tiny = some (q2', s)) (cs : (QefOp.state : QefOp ℝ 3).Clean qef3Rows tiny q2)
    (cm : (QefOp.merge s).Clean qef3Rows tiny q1) :
    ∃ (q : Qef ℝ 3) (e1 e2 : VecN ℝ 3 → ℝ), q1.merge qef3Rows tiny s = some q ∧
      (∀ p, q1.eval qef3Rows p = some (e1 p) ∧ q2.eval qef3Rows p = some (e2 p) ∧
        q.eval qef3Rows p = some (e1 p + e2 p)) ∧
      massOf q = (massOf q1).combine (massOf q2) := by
  obtain ⟨i1, _⟩ := run_spec ht (by simp [qef3Rows]) ops1 new3_inv c1 h1
  obtain ⟨i2, _⟩ := run_spec ht (by simp [qef3Rows]) ops2 new3_inv c2 h2
  have hcnt : q2.pointsCount < 2 ^ 30 := by
    by_contra hcnt
    obtain ⟨A, hA⟩ := compress_some (tiny := tiny) (by simp [qef3Rows] : 3 + 1 ≤ qef3Rows) i2.rows
    simp only [Qef.state, hA, Option.bind_eq_bind, Option.bind_some] at hs
    rw [if_neg hcnt] at hs
    simp at hs
  obtain ⟨q2'', s', hs', j1, j2, j3, j4, j5⟩ := state_spec ht (by simp [qef3Rows]) i2 cs hcnt
  rw [hs, Option.some.injEq, Prod.mk.injEq] at hs'
  obtain ⟨rfl, rfl⟩ := hs'
  obtain ⟨q, hq, k1, k2, k3, _⟩ := merge_spec ht (by simp [qef3Rows]) i1 cm s
  refine ⟨q, qerr q1, qerr q2, hq, fun p => ⟨eval_eq _ i1.rows p, eval_eq _ i2.rows p, ?_⟩, ?_⟩
  · rw [eval_eq _ k1.rows p, k2 p, j3 p]
  · rw [k3, j4]

/-- C36.  The combination of mass data does not depend on the order. -/
theorem C36_combine_comm {d : Nat} (a b : Mass ℝ d) : a.combine b = b.combine a := by
  unfold Mass.combine
  rcases lt_trichotomy a.dim b.dim with h | h | h
  · simp [h, not_lt.2 h.le]
  · simp [h, add_comm a.sum, Nat.add_comm a.cnt]
  · simp [h, not_lt.2 h.le]

/-- C36.  The combination of mass data does not depend on the grouping. -/
theorem C36_combine_assoc {d : Nat} (a b c : Mass ℝ d) : (a.combine b).combine c = a.combine (b.combine c) := by
  obtain ⟨ad, as, ac⟩ := a
  obtain ⟨bd, bs, bc⟩ := b
  obtain ⟨cd, cs, cc⟩ := c
  unfold Mass.combine
  rcases lt_trichotomy ad bd with h1 | h1 | h1 <;> rcases lt_trichotomy bd cd with h2 | h2 | h2 <;>
    rcases lt_trichotomy ad cd with h3 | h3 | h3 <;>
    first
    | (exfalso; omega)
    | (simp only [h1, h2, h3, if_true, lt_irrefl, if_false, not_lt.2 h1.le, not_lt.2 h2.le, not_lt.2 h3.le]
       try (first | done | (congr 1 <;> first | exact add_assoc _ _ _ | omega)))

theorem le_foldl_max (l : List Nat) (a : Nat) : a ≤ l.foldl max a ∧ ∀ x ∈ l, x ≤ l.foldl max a := by
  induction l generalizing a with
  | nil => simp
  | cons b l ih =>
    obtain ⟨h1, h2⟩ := ih (max a b)
    simp only [List.foldl_cons]
    refine ⟨le_trans (le_max_left _ _) h1, ?_⟩
    intro x hx
    rcases List.mem_cons.1 hx with rfl | hx
    · exact le_trans (le_max_right _ _) h1
    · exact h2 x hx

/-- C36.  Combining any list of mass data, starting from a fresh solver: the dimension is the maximum, and the sum and
the number of points are those of the entries of that dimension only. -/
theorem C36_mass_average {d : Nat} (l : List (Mass ℝ d)) (hl : ∀ m ∈ l, m.cnt < 2 ^ 32) :
    l.foldl Mass.combine ⟨0, 0, 0⟩ =
      ⟨(l.map (·.dim)).foldl max 0,
        ((l.filter fun m => m.dim = (l.map (·.dim)).foldl max 0).map (·.sum)).sum,
        ((l.filter fun m => m.dim = (l.map (·.dim)).foldl max 0).map (·.cnt)).sum % 2 ^ 32⟩ := by
  induction l using List.reverseRecOn with
  | nil => simp
  | append_singleton l m ih =>
    have ih := ih (fun x hx => hl x (by simp [hx]))
    have hm := hl m (by simp)
    rw [List.foldl_append, ih, List.map_append, List.foldl_append]
    simp only [List.map_cons, List.map_nil, List.foldl_cons, List.foldl_nil]
    set D := (l.map (·.dim)).foldl max 0 with hD
    have hle : ∀ x ∈ l, x.dim ≤ D := fun x hx => (le_foldl_max _ 0).2 _ (List.mem_map.2 ⟨x, hx, rfl⟩)
    unfold Mass.combine
    dsimp only
    rcases lt_trichotomy D m.dim with h | h | h
    · rw [if_pos h, max_eq_right h.le, List.filter_append]
      have : l.filter (fun x => decide (x.dim = m.dim)) = [] := by
        rw [List.filter_eq_nil_iff]
        intro x hx hh
        have := hle x hx
        have := of_decide_eq_true hh
        omega
      have hm' : m.cnt % 4294967296 = m.cnt := Nat.mod_eq_of_lt hm
      rw [this]
      simp [hm']
    · rw [if_neg (by omega), if_neg (by omega), max_eq_left (by omega), List.filter_append]
      simp [h]
    · rw [if_neg (by omega), if_pos h, max_eq_left h.le, List.filter_append]
      have hne : ¬ (m.dim = D) := by omega
      simp [hne]

section
set_option linter.unusedSectionVars false
variable {K : Type} [Add K] [Sub K] [Mul K] [Div K] [Neg K] [Zero K] [One K] [OfNat K 2] [OfScientific K] [NatCast K] [IntCast K]
  [Fabs K] [Elem K] [LinearOrder K] [RoundedLaws K]

/-! ### C37 -/

/-- C37.  On a fresh 3D solver no history of calls ever uses more than the eight rows of the buffer. -/
theorem C37_rows (tiny : K) (ops : List (QefOp K 3)) {q : Qef K 3} (h : runOps qef3Rows 30 tiny Qef.new3 ops = some q) :
    q.usedRows ≤ 8 :=
  run_rows (M := qef3Rows) (by simp [qef3Rows]) ops (by simp [Qef.new3]) h

/-- C37.  After any history, no further call accesses a row outside the buffer: a call fails only on the assertion of
`state` (too many points) or on a division by zero in `solve` (no points, or zero truncation tolerance). -/
theorem C37_access (tiny : K) (ops : List (QefOp K 3)) {q : Qef K 3} (h : runOps qef3Rows 30 tiny Qef.new3 ops = some q)
    (op : QefOp K 3) (hop : op.apply qef3Rows 30 tiny q = none) :
      (op = .state ∧ 2 ^ 30 ≤ q.pointsCount) ∨
      (∃ lo hi, op = .solve lo hi ∧ (q.pointsCount = 0 ∨ q.pinvTolerance ≤ 0)) :=
  (apply_rows (by simp [qef3Rows]) (C37_rows tiny ops h) op).2 hop

/-- C37.  `eval` never reads outside the buffer either. -/
theorem C37_eval (tiny : K) (ops : List (QefOp K 3)) {q : Qef K 3} (h : runOps qef3Rows 30 tiny Qef.new3 ops = some q)
    (p : VecN K 3) : ∃ e, q.eval qef3Rows p = some e := eval_some (C37_rows tiny ops h) p

end

/-! ### C39: the same for the 4D solver -/

/-- C39 (C35 for the 4D solver). -/
theorem C39_eval {tiny : ℝ} (ht : 0 < tiny) (ops : List (QefOp ℝ 4)) (hc : CleanRun qef4Rows 29 tiny Qef.new4 ops)
    {q : Qef ℝ 4} (h : runOps qef4Rows 29 tiny Qef.new4 ops = some q) (p : VecN ℝ 4) :
    q.eval qef4Rows p = some (expectedErr ops p) := by
  obtain ⟨i, e⟩ := run_spec ht (by simp [qef4Rows]) ops new4_inv hc h
  rw [eval_eq q i.rows, e p, new4_err]
  rfl

/-- C39 (exactness for small thresholds, 4D). -/
theorem C39_eval_exact (ops : List (QefOp ℝ 4)) : ∃ δ : ℝ, 0 < δ ∧ ∀ tiny, 0 < tiny → tiny ≤ δ →
    ∀ q, runOps qef4Rows 29 tiny Qef.new4 ops = some q → ∀ p, q.eval qef4Rows p = some (expectedErr ops p) := by
  obtain ⟨δ, h, h'⟩ := cleanRun_exists qef4Rows 29 ops Qef.new4
  exact ⟨δ, h, fun t ht htd q hq p => C39_eval ht ops (h' t ht htd) hq p⟩

/-- C39 (C36 for the 4D solver). -/
theorem C39_merge {tiny : ℝ} (ht : 0 < tiny) (ops1 ops2 : List (QefOp ℝ 4)) {q1 q2 q2' : Qef ℝ 4} {s : QState ℝ 4}
    (h1 : runOps qef4Rows 29 tiny Qef.new4 ops1 = some q1) (c1 : CleanRun qef4Rows 29 tiny Qef.new4 ops1)
    (h2 : runOps qef4Rows 29 tiny Qef.new4 ops2 = some q2) (c2 : CleanRun qef4Rows 29 tiny Qef.new4 ops2)
    (hs : q2.state qef4Rows 29 tiny = some (q2', s)) (cs : (QefOp.state : QefOp ℝ 4).Clean qef4Rows tiny q2)
    (cm : (QefOp.merge s).Clean qef4Rows tiny q1) :
    ∃ (q : Qef ℝ 4) (e1 e2 : VecN ℝ 4 → ℝ), q1.merge qef4Rows tiny s = some q ∧
      (∀ p, q1.eval qef4Rows p = some (e1 p) ∧ q2.eval qef4Rows p = some (e2 p) ∧
        q.eval qef4Rows p = some (e1 p + e2 p)) ∧
      massOf q = (massOf q1).combine (massOf q2) := by
  obtain ⟨i1, _⟩ := run_spec ht (by simp [qef4Rows]) ops1 new4_inv c1 h1
  obtain ⟨i2, _⟩ := run_spec ht (by simp [qef4Rows]) ops2 new4_inv c2 h2
  have hcnt : q2.pointsCount < 2 ^ 29 := by
    by_contra hcnt
    obtain ⟨A, hA⟩ := compress_some (tiny := tiny) (by simp [qef4Rows] : 4 + 1 ≤ qef4Rows) i2.rows
    simp only [Qef.state, hA, Option.bind_eq_bind, Option.bind_some] at hs
    rw [if_neg hcnt] at hs
    simp at hs
  obtain ⟨q2'', s', hs', j1, j2, j3, j4, j5⟩ := state_spec ht (by simp [qef4Rows]) i2 cs hcnt
  rw [hs, Option.some.injEq, Prod.mk.injEq] at hs'
  obtain ⟨rfl, rfl⟩ := hs'
  obtain ⟨q, hq, k1, k2, k3, _⟩ := merge_spec ht (by simp [qef4Rows]) i1 cm s
  refine ⟨q, qerr q1, qerr q2, hq, fun p => ⟨eval_eq _ i1.rows p, eval_eq _ i2.rows p, ?_⟩, ?_⟩
  · rw [eval_eq _ k1.rows p, k2 p, j3 p]
  · rw [k3, j4]

section
variable {K : Type} [Add K] [Sub K] [Mul K] [Div K] [Neg K] [Zero K] [One K] [OfNat K 2] [OfScientific K] [NatCast K] [IntCast K]
  [Fabs K] [Elem K] [LinearOrder K] [RoundedLaws K]

/-- C39 (C37 for the 4D solver, buffer of sixteen rows). -/
theorem C39_rows (tiny : K) (ops : List (QefOp K 4)) {q : Qef K 4} (h : runOps qef4Rows 29 tiny Qef.new4 ops = some q) :
    q.usedRows ≤ 16 :=
  run_rows (M := qef4Rows) (by simp [qef4Rows]) ops (by simp [Qef.new4]) h

/-- C39 (C37 for the 4D solver: no call accesses a row outside the buffer). -/
theorem C39_access (tiny : K) (ops : List (QefOp K 4)) {q : Qef K 4} (h : runOps qef4Rows 29 tiny Qef.new4 ops = some q)
    (op : QefOp K 4) (hop : op.apply qef4Rows 29 tiny q = none) :
      (op = .state ∧ 2 ^ 29 ≤ q.pointsCount) ∨
      (∃ lo hi, op = .solve lo hi ∧ (q.pointsCount = 0 ∨ q.pinvTolerance ≤ 0)) :=
  (apply_rows (by simp [qef4Rows]) (C39_rows tiny ops h) op).2 hop

/-! ### C57: `reset` -/

/-- A newly constructed 3D solver on which the four options have been set to the values that `q` has. -/
noncomputable def freshLike3 (q : Qef K 3) : Qef K 3 :=
  (((Qef.new3.setPinvTolerance q.pinvTolerance).setJacobiTolerance q.jacobiTolerance).setMaxJacobiIters
    q.maxJacobiIters).useFastFormulas q.fast

/-- A newly constructed 4D solver on which the four options have been set to the values that `q` has. -/
noncomputable def freshLike4 (q : Qef K 4) : Qef K 4 :=
  (((Qef.new4.setPinvTolerance q.pinvTolerance).setJacobiTolerance q.jacobiTolerance).setMaxJacobiIters
    q.maxJacobiIters).useFastFormulas q.fast

/-- The options of a solver are in the ranges that the setters enforce. -/
def OptOK {d : Nat} (q : Qef K d) : Prop := 0 ≤ q.pinvTolerance ∧ 0 ≤ q.jacobiTolerance ∧ 1 ≤ q.maxJacobiIters

theorem compress_opts {d M : Nat} {tiny : K} {q q' : Qef K d} (h : q.compressMatrix M tiny = some q') (hq : OptOK q) : OptOK q' := by
  simp only [Qef.compressMatrix, Option.bind_eq_bind, Option.bind_eq_some_iff] at h
  obtain ⟨A, -, h⟩ := h
  cases h
  exact hq

theorem apply_opts {d M bits : Nat} {tiny : K} {q q' : Qef K (d + 2)} (op : QefOp K (d + 2))
    (h : op.apply M bits tiny q = some q') (hq : OptOK q) : OptOK q' := by
  cases op with
  | reset => cases h; exact hq
  | addPlane pt n =>
    simp only [QefOp.apply, Qef.addPlane, Option.bind_eq_bind, Option.bind_eq_some_iff] at h
    obtain ⟨q1, h1, A, -, h⟩ := h
    have : OptOK q1 := by
      unfold Qef.roomForPlane at h1
      split at h1
      · exact compress_opts h1 hq
      · cases h1; exact hq
    cases h
    exact this
  | merge s =>
    simp only [QefOp.apply, Qef.merge, Option.bind_eq_bind, Option.bind_eq_some_iff] at h
    obtain ⟨q1, h1, A, -, h⟩ := h
    have hm : OptOK (q.mergeMass s) := by
      unfold Qef.mergeMass
      split
      · exact hq
      · split <;> exact hq
    have : OptOK q1 := by
      unfold Qef.roomForMerge at h1
      split at h1
      · exact compress_opts h1 hm
      · cases h1; exact hm
    cases h
    exact this
  | state =>
    simp only [QefOp.apply, Qef.state, Option.bind_eq_bind, Option.map_eq_some_iff, Option.bind_eq_some_iff] at h
    obtain ⟨⟨q1, st⟩, ⟨q2, h2, h⟩, rfl⟩ := h
    have := compress_opts h2 hq
    split at h
    · cases h; exact this
    · cases h
  | solve lo hi =>
    simp only [QefOp.apply, Qef.solve, Option.bind_eq_bind, Option.map_eq_some_iff, Option.bind_eq_some_iff] at h
    obtain ⟨⟨q1, st⟩, ⟨q2, h2, h⟩, rfl⟩ := h
    have := compress_opts h2 hq
    split at h
    · cases h
    · cases h; exact this
  | setPinvTolerance v => cases h; exact ⟨le_max_left _ _, hq.2⟩
  | setJacobiTolerance v => cases h; exact ⟨hq.1, le_max_left _ _, hq.2.2⟩
  | setMaxJacobiIters v => cases h; exact ⟨hq.1, hq.2.1, le_max_left _ _⟩
  | useFastFormulas v => cases h; exact hq

theorem run_opts {d M bits : Nat} {tiny : K} (ops : List (QefOp K (d + 2))) {q q' : Qef K (d + 2)}
    (h : runOps M bits tiny q ops = some q') (hq : OptOK q) : OptOK q' := by
  induction ops generalizing q with
  | nil => cases h; exact hq
  | cons op ops ih =>
    simp only [runOps, List.foldlM_cons, Option.bind_eq_bind, Option.bind_eq_some_iff] at h
    obtain ⟨q1, h1, h⟩ := h
    exact ih h (apply_opts op h1 hq)

/-- C57.  Whatever was done with a 3D solver, after `reset` it goes through any further history exactly as a new solver
with the same options does: nothing of the earlier planes, merged states, mass points and dimensions is left. -/
theorem C57_reset3 (tiny : K) (before after : List (QefOp K 3)) {q : Qef K 3}
    (h : runOps qef3Rows 30 tiny Qef.new3 before = some q) :
    runOps qef3Rows 30 tiny Qef.new3 (before ++ .reset :: after) = runOps qef3Rows 30 tiny (freshLike3 q) after := by
  have ho : OptOK q := run_opts before h ⟨RoundedLaws.default_nonneg.1, RoundedLaws.default_nonneg.2, by norm_num [Qef.new3]⟩
  have e : q.reset = freshLike3 q := by
    simp [Qef.reset, freshLike3, Qef.new3, Qef.setPinvTolerance, Qef.setJacobiTolerance, Qef.setMaxJacobiIters,
      Qef.useFastFormulas, ho.1, ho.2.1, ho.2.2]
  have h' : runOps qef3Rows 30 tiny q (.reset :: after) = runOps qef3Rows 30 tiny q.reset after := rfl
  rw [← e, ← h']
  unfold runOps at h ⊢
  rw [List.foldlM_append, h]
  rfl

/-- C57 for the 4D solver. -/
theorem C57_reset4 (tiny : K) (before after : List (QefOp K 4)) {q : Qef K 4}
    (h : runOps qef4Rows 29 tiny Qef.new4 before = some q) :
    runOps qef4Rows 29 tiny Qef.new4 (before ++ .reset :: after) = runOps qef4Rows 29 tiny (freshLike4 q) after := by
  have ho : OptOK q := run_opts before h ⟨RoundedLaws.default_nonneg.1, RoundedLaws.default_nonneg.2, by norm_num [Qef.new4]⟩
  have e : q.reset = freshLike4 q := by
    simp [Qef.reset, freshLike4, Qef.new4, Qef.setPinvTolerance, Qef.setJacobiTolerance, Qef.setMaxJacobiIters,
      Qef.useFastFormulas, ho.1, ho.2.1, ho.2.2]
  have h' : runOps qef4Rows 29 tiny q (.reset :: after) = runOps qef4Rows 29 tiny q.reset after := rfl
  rw [← e, ← h']
  unfold runOps at h ⊢
  rw [List.foldlM_append, h]
  rfl

end

/-- The hypothesis is met by the example history. -/
example : ∃ q, runOps qef3Rows 30 1 Qef.new3 demoOps = some q := demo_qef.1

end Isomesh
