import Verif.Proofs.Qef
import Verif.Props.QefSolve

/-! Systems of equations of a single plane: all rows are multiples of one row.  Compression keeps this form, and the solver returns the
mean of the points exactly, whatever the tolerances and the number of iterations. -/

namespace Isomesh

open Spec

variable {d : Nat}

/-- All rows are multiples of `w` by square roots of natural numbers. -/
def FlatRows (w : Fin (d + 1) → ℝ) (A : QMat ℝ d) : Prop := ∀ k, ∃ (l : ℝ) (n : Nat), l ^ 2 = n ∧ ∀ j, A j k = l * w j

theorem flat_norm {w : Fin (d + 1) → ℝ} {A : QMat ℝ d} (h : FlatRows w A) (used : Nat) (i : Fin (d + 1)) :
    ∃ n : Nat, hhNorm used A i = n * w i ^ 2 := by
  choose l n hl hA using h
  refine ⟨∑ k ∈ Finset.Ico (i : Nat) used, n k, ?_⟩
  rw [hhNorm_eq]
  push_cast
  rw [Finset.sum_mul]
  apply Finset.sum_congr rfl
  intro k _
  rw [hA, ← hl]; ring

theorem flat_step {tiny : ℝ} (ht : 0 < tiny) {used : Nat} {w : Fin (d + 1) → ℝ} {A : QMat ℝ d} {i : Fin (d + 1)} (h : FlatRows w A)
    (hz : ∀ j < i, ∀ k, (j : Nat) < k → k < used → A j k = 0)
    (hw : w i = 0 ∨ tiny ≤ w i ^ 2 ∨ ∃ j < i, w j ≠ 0) :
    FlatRows w (hhStep tiny used A i) ∧ (hhNorm used A i = 0 ∨ tiny ≤ hhNorm used A i) := by
  have hflat := h
  choose l n hl hA using h
  by_cases hj : ∃ j < i, w j ≠ 0
  · obtain ⟨j, hji, hj0⟩ := hj
    have h0 : ∀ k, (i : Nat) ≤ k → k < used → l k = 0 := by
      intro k h1 h2
      have := hz j hji k (lt_of_lt_of_le hji h1) h2
      rw [hA] at this
      exact (mul_eq_zero.1 this).resolve_right hj0
    have hn : hhNorm used A i = 0 := by
      rw [hhNorm_eq]
      apply Finset.sum_eq_zero
      intro k hk
      rw [Finset.mem_Ico] at hk
      rw [hA, h0 k hk.1 hk.2]; ring
    refine ⟨?_, Or.inl hn⟩
    intro k
    refine ⟨l k, n k, hl k, fun j' => ?_⟩
    rw [← hA]
    simp only [hhStep]
    split
    · rw [sumL_real, sum_range'_eq, Finset.sum_eq_zero]
      · ring
      · intro k' hk'
        rw [Finset.mem_Ico] at hk'
        rw [hA, h0 k' hk'.1 hk'.2]; ring
    · rfl
  · push Not at hj
    have hw' : w i = 0 ∨ tiny ≤ w i ^ 2 := by
      rcases hw with hw | hw | ⟨j, h1, h2⟩
      · exact Or.inl hw
      · exact Or.inr hw
      · exact absurd (hj j h1) h2
    obtain ⟨N, hN⟩ := flat_norm hflat used i
    have hclean : hhNorm used A i = 0 ∨ tiny ≤ hhNorm used A i := by
      rw [hN]
      rcases hw' with hw' | hw'
      · left; rw [hw']; ring
      · rcases Nat.eq_zero_or_pos N with h0 | h0
        · left; rw [h0]; simp
        · right
          have : (1 : ℝ) ≤ N := by exact_mod_cast h0
          nlinarith [sq_nonneg (w i)]
    refine ⟨?_, hclean⟩
    obtain ⟨l', hl'⟩ : ∃ l' : Nat → ℝ, ∀ k, l' k = if (i : Nat) ≤ k ∧ k < used then
      l k - (∑ k' ∈ Finset.Ico (i : Nat) used, l k' * hhVec tiny used A i k') * hhInvGamma tiny used A i * hhVec tiny used A i k
      else l k := ⟨_, fun _ => rfl⟩
    have hform : ∀ j k, hhStep tiny used A i j k = l' k * w j := by
      intro j k
      rw [hl']
      simp only [hhStep]
      by_cases hji : i ≤ j
      · by_cases hk : (i : Nat) ≤ k ∧ k < used
        · rw [if_pos ⟨hji, hk⟩, if_pos hk, sumL_real, sum_range'_eq, hA]
          have : ∑ k' ∈ Finset.Ico (i : Nat) used, A j k' * hhVec tiny used A i k' =
              (∑ k' ∈ Finset.Ico (i : Nat) used, l k' * hhVec tiny used A i k') * w j := by
            rw [Finset.sum_mul]
            apply Finset.sum_congr rfl
            intro k' _
            rw [hA]; ring
          rw [this]; ring
        · rw [if_neg (fun h => hk h.2), if_neg hk, hA]
      · rw [if_neg (fun h => hji h.1), hA, hj j (not_le.1 hji)]; ring
    have hsq : ∀ k, ∃ m : Nat, l' k ^ 2 = m := by
      intro k
      by_cases hk : (i : Nat) ≤ k ∧ k < used
      swap
      · exact ⟨n k, by rw [hl', if_neg hk, hl]⟩
      by_cases hwi : w i = 0
      · have hn0 : hhNorm used A i < tiny := by rw [hN, hwi]; simpa using ht
        have hvec : ∀ k, hhVec tiny used A i k = if k = i then 1 else 0 := by
          intro k; simp only [hhVec]; rw [if_pos hn0]
        have hg : hhInvGamma tiny used A i = 2 := by simp only [hhInvGamma]; rw [if_pos hn0]
        have hS : ∑ k' ∈ Finset.Ico (i : Nat) used, l k' * hhVec tiny used A i k' = l i := by
          rw [Finset.sum_eq_single (i : Nat)]
          · rw [hvec, if_pos rfl]; ring
          · intro b _ hb; rw [hvec, if_neg hb]; ring
          · intro hb; exact absurd (Finset.mem_Ico.2 ⟨le_refl _, lt_of_le_of_lt hk.1 hk.2⟩) hb
        refine ⟨n k, ?_⟩
        rw [hl', if_pos hk, hS, hg, hvec]
        by_cases hki : k = i
        · rw [if_pos hki, hki, ← hl]; ring
        · rw [if_neg hki, ← hl]; ring
      · by_cases hki : k = i
        · subst hki
          have hf := hhStep_form ht (used := used) (A := A) (i := i) (fun j hj k h1 h2 => hz j hj k (lt_of_lt_of_le hj h1) h2)
            (Pi.single i 1)
          have hrd : ∀ (B : QMat ℝ d) k, rowDot B (Pi.single i 1) k = B i k := by
            intro B k
            unfold rowDot
            rw [Finset.sum_eq_single i]
            · simp
            · intro b _ hb; simp [hb]
            · intro hb; exact absurd (Finset.mem_univ _) hb
          simp only [hrd] at hf
          rw [← Finset.sum_range_add_sum_Ico _ (le_of_lt hk.2), ← Finset.sum_range_add_sum_Ico _ (le_of_lt hk.2)] at hf
          have e1 : ∑ k ∈ Finset.range (i : Nat), hhStep tiny used A i i k ^ 2 = ∑ k ∈ Finset.range (i : Nat), A i k ^ 2 := by
            apply Finset.sum_congr rfl
            intro k hk
            rw [hhStep_row (Or.inl (Finset.mem_range.1 hk))]
          rw [e1] at hf
          have hf := add_left_cancel hf
          rw [Finset.sum_eq_single (i : Nat)] at hf
          · have e2 : ∑ k ∈ Finset.Ico (i : Nat) used, A i k ^ 2 = hhNorm used A i := by
              rw [hhNorm_eq]; apply Finset.sum_congr rfl; intro k _; ring
            rw [e2, hN, hform, mul_pow] at hf
            exact ⟨N, mul_right_cancel₀ (pow_ne_zero 2 hwi) hf⟩
          · intro b hb hbi
            rw [Finset.mem_Ico] at hb
            rw [hh_column ht hclean (lt_of_le_of_ne hb.1 (Ne.symm hbi)) hb.2]; ring
          · intro hb; exact absurd (Finset.mem_Ico.2 hk) hb
        · have := hh_column ht hclean (lt_of_le_of_ne hk.1 (Ne.symm hki)) hk.2
          rw [hform] at this
          exact ⟨0, by rw [(mul_eq_zero.1 this).resolve_right hwi]; simp⟩
    intro k
    obtain ⟨m, hm⟩ := hsq k
    exact ⟨l' k, m, hm, fun j => hform j k⟩

/-- The components that decide about the reflections are zero or not tiny, and one of the first `d` is not zero. -/
structure FlatRow (tiny : ℝ) (w : Fin (d + 1) → ℝ) : Prop where
  size : ∀ i : Fin d, w i.castSucc = 0 ∨ tiny ≤ w i.castSucc ^ 2
  nonzero : ∃ i : Fin d, w i.castSucc ≠ 0

theorem flatRow_step {tiny : ℝ} {w : Fin (d + 1) → ℝ} (h : FlatRow tiny w) (i : Fin (d + 1)) :
    w i = 0 ∨ tiny ≤ w i ^ 2 ∨ ∃ j < i, w j ≠ 0 := by
  rcases Fin.eq_castSucc_or_eq_last i with ⟨j, rfl⟩ | rfl
  · rcases h.size j with h | h
    · exact Or.inl h
    · exact Or.inr (Or.inl h)
  · obtain ⟨j, hj⟩ := h.nonzero
    exact Or.inr (Or.inr ⟨j.castSucc, Fin.castSucc_lt_last j, hj⟩)

theorem flat_fold {tiny : ℝ} (ht : 0 < tiny) {used : Nat} {w : Fin (d + 1) → ℝ} (hw : FlatRow tiny w) (n m : Nat) (hnm : n + m = d + 1)
    (A : QMat ℝ d) (h : FlatRows w A) (hz : ∀ j : Fin (d + 1), (j : Nat) < m → ∀ k, (j : Nat) < k → k < used → A j k = 0) :
    NoTiny tiny used ((List.finRange (d + 1)).drop m) A ∧
      FlatRows w (((List.finRange (d + 1)).drop m).foldl (hhStep tiny used) A) := by
  induction n generalizing m A with
  | zero =>
    have : (List.finRange (d + 1)).drop m = [] := List.drop_eq_nil_of_le (by simp; omega)
    rw [this]
    exact ⟨trivial, h⟩
  | succ n ih =>
    have hm : m < d + 1 := by omega
    have hd : (List.finRange (d + 1)).drop m = ⟨m, hm⟩ :: (List.finRange (d + 1)).drop (m + 1) := by
      rw [List.drop_eq_getElem_cons (by simpa using hm)]
      simp
    have hs := flat_step ht (used := used) (i := ⟨m, hm⟩) h (fun j hj k h1 h2 => hz j hj k h1 h2) (flatRow_step hw _)
    have := ih (m + 1) (by omega) _ hs.1 (by
      intro j hj k h1 h2
      rcases Nat.lt_succ_iff_lt_or_eq.1 hj with hj | hj
      · rw [hhStep_col_lt (by exact hj)]; exact hz j hj k h1 h2
      · have : j = ⟨m, hm⟩ := Fin.ext hj
        subst this
        exact hh_column ht hs.2 h1 h2)
    rw [hd]
    exact ⟨⟨hs.2, this.1⟩, this.2⟩

theorem flat_clean {tiny : ℝ} (ht : 0 < tiny) {w : Fin (d + 1) → ℝ} (hw : FlatRow tiny w) {q : Qef ℝ d} (h : FlatRows w q.A) :
    CompressClean tiny q := by
  have := (flat_fold ht hw (used := q.usedRows) (d + 1) 0 (by omega) q.A h (by intro j hj; omega)).1
  simpa [CompressClean] using this

theorem flat_compress {M : Nat} {tiny : ℝ} (ht : 0 < tiny) {w : Fin (d + 1) → ℝ} (hw : FlatRow tiny w) {q q' : Qef ℝ d}
    (h : FlatRows w q.A) (hc : q.compressMatrix M tiny = some q') : FlatRows w q'.A := by
  have := (flat_fold ht hw (used := q.usedRows) (d + 1) 0 (by omega) q.A h (by intro j hj; omega)).2
  rw [List.drop_zero] at this
  unfold Qef.compressMatrix householder at hc
  split at hc
  · cases hc; exact this
  · cases hc

/-- The points collected lie on the plane (`m · x = c`) and in the box; there are at most `N` of them. -/
structure FlatMass (w : Fin (d + 1) → ℝ) (lo hi : VecN ℝ d) (N : Nat) (sum : VecN ℝ d) (cnt : Nat) : Prop where
  on : ∑ i : Fin d, w i.castSucc * sum i = w (Fin.last d) * cnt
  lower : ∀ i, lo i * cnt ≤ sum i
  upper : ∀ i, sum i ≤ hi i * cnt
  bound : cnt ≤ N

theorem FlatMass.zero (w : Fin (d + 1) → ℝ) (lo hi : VecN ℝ d) : FlatMass w lo hi 0 (fun _ => 0) 0 :=
  ⟨by simp, by simp, by simp, le_refl _⟩

theorem FlatMass.add {w : Fin (d + 1) → ℝ} {lo hi : VecN ℝ d} {N N' : Nat} {s s' : VecN ℝ d} {c c' : Nat} (h : FlatMass w lo hi N s c)
    (h' : FlatMass w lo hi N' s' c') : FlatMass w lo hi (N + N') (s + s') (c + c') where
  on := by
    simp only [Pi.add_apply, mul_add, Finset.sum_add_distrib, h.on, h'.on]
    push_cast; ring
  lower := by
    intro i; have := h.lower i; have := h'.lower i; simp only [Pi.add_apply]; push_cast; linarith
  upper := by
    intro i; have := h.upper i; have := h'.upper i; simp only [Pi.add_apply]; push_cast; linarith
  bound := Nat.add_le_add h.bound h'.bound

theorem FlatMass.mono {w : Fin (d + 1) → ℝ} {lo hi lo' hi' : VecN ℝ d} {N N' : Nat} {s : VecN ℝ d} {c : Nat} (h : FlatMass w lo hi N s c)
    (h1 : ∀ i, lo' i ≤ lo i) (h2 : ∀ i, hi i ≤ hi' i) (h3 : N ≤ N') : FlatMass w lo' hi' N' s c where
  on := h.on
  lower := fun i => le_trans (mul_le_mul_of_nonneg_right (h1 i) (Nat.cast_nonneg _)) (h.lower i)
  upper := fun i => le_trans (h.upper i) (mul_le_mul_of_nonneg_right (h2 i) (Nat.cast_nonneg _))
  bound := h.bound.trans h3

theorem u32_small {n : Nat} (h : n < 2 ^ 32) : u32 n = n := Nat.mod_eq_of_lt h

/-- A solver holding equations of one plane. -/
structure FlatQ (M : Nat) (w : Fin (d + 1) → ℝ) (lo hi : VecN ℝ d) (N : Nat) (q : Qef ℝ d) : Prop where
  inv : QInv M q
  rows : FlatRows w q.A
  mass : FlatMass w lo hi N q.pointsSum q.pointsCount

/-- A saved system of equations of one plane. -/
structure FlatS (w : Fin (d + 1) → ℝ) (lo hi : VecN ℝ d) (N : Nat) (s : QState ℝ d) : Prop where
  rows : ∀ r : Fin (d + 1), ∃ (l : ℝ) (n : Nat), l ^ 2 = n ∧ ∀ c, (if c < r then 0 else s.a r c) = l * w c
  mass : FlatMass w lo hi N s.mp s.mpCnt

theorem FlatS.mono {w : Fin (d + 1) → ℝ} {lo hi lo' hi' : VecN ℝ d} {N N' : Nat} {s : QState ℝ d} (h : FlatS w lo hi N s)
    (h1 : ∀ i, lo' i ≤ lo i) (h2 : ∀ i, hi i ≤ hi' i) (h3 : N ≤ N') : FlatS w lo' hi' N' s := ⟨h.rows, h.mass.mono h1 h2 h3⟩

theorem flatQ_reset (M : Nat) (w : Fin (d + 1) → ℝ) (lo hi : VecN ℝ d) (q : Qef ℝ d) : FlatQ M w lo hi 0 q.reset where
  inv := ⟨Nat.zero_le _, fun _ _ _ _ => rfl⟩
  rows := fun _ => ⟨0, 0, by simp, fun _ => by simp [Qef.reset]⟩
  mass := FlatMass.zero w lo hi

section
variable {M : Nat} {tiny : ℝ} {w : Fin (d + 1) → ℝ} {lo hi : VecN ℝ d} {N : Nat}

theorem flatQ_compress (ht : 0 < tiny) (hw : FlatRow tiny w) {q q' : Qef ℝ d} (h : FlatQ M w lo hi N q)
    (hc : q.compressMatrix M tiny = some q') : FlatQ M w lo hi N q' ∧ q'.usedRows = d + 1 ∧
      (∀ (j : Fin (d + 1)) (k : Nat), (j : Nat) < k → k < d + 1 → q'.A j k = 0) ∧ q' = { q with A := q'.A, usedRows := d + 1 } := by
  obtain ⟨h1, h2, -, h4, -, h6⟩ := compress_spec ht h.inv (flat_clean ht hw h.rows) hc
  refine ⟨⟨h1, flat_compress ht hw h.rows hc, ?_⟩, h2, h4, h6⟩
  rw [h6]; exact h.mass

theorem flatQ_add (ht : 0 < tiny) (hw : FlatRow tiny w) {q q' : Qef ℝ d} (h : FlatQ M w lo hi N q) {pt n : VecN ℝ d}
    (hn : ∀ i, n i = w i.castSucc) (hp : dotProduct n pt = w (Fin.last d)) (hlo : ∀ i, lo i ≤ pt i) (hhi : ∀ i, pt i ≤ hi i)
    (hN : N + 1 < 2 ^ 32) (hM : d + 1 < M) (ha : q.addPlane M tiny pt n = some q') : FlatQ M w lo hi (N + 1) q' := by
  obtain ⟨q'', e, hinv, -⟩ := addPlane_spec ht hM h.inv (fun _ => flat_clean ht hw h.rows) pt n
  rw [ha] at e; cases e
  have hrow : (Fin.snoc (α := fun _ => ℝ) n (dotProduct n pt) : Fin (d + 1) → ℝ) = w := by
    funext j
    rcases Fin.eq_castSucc_or_eq_last j with ⟨i, rfl⟩ | rfl
    · rw [Fin.snoc_castSucc, hn]
    · rw [Fin.snoc_last, hp]
  have hpt : FlatMass w lo hi 1 pt 1 :=
    ⟨by rw [← hp, Nat.cast_one, mul_one]; unfold dotProduct; exact Finset.sum_congr rfl fun i _ => by rw [hn],
      by simpa using hlo, by simpa using hhi, le_refl _⟩
  unfold Qef.addPlane at ha
  have key : ∀ q1 : Qef ℝ d, FlatQ M w lo hi N q1 → ∀ A, Qef.writeRow M q1.A q1.usedRows (Fin.snoc (α := fun _ => ℝ) n (dotProduct n pt)) = some A →
      q' = { q1 with A := A, usedRows := q1.usedRows + 1, pointsSum := q1.pointsSum + pt, pointsCount := u32 (q1.pointsCount + 1) } →
      FlatQ M w lo hi (N + 1) q' := by
    intro q1 h1 A hA hq'
    refine ⟨hinv, ?_, ?_⟩
    · rw [hq']
      dsimp only
      unfold Qef.writeRow at hA
      split at hA
      · cases hA
        intro k
        dsimp only
        by_cases hk : k = q1.usedRows
        · exact ⟨1, 1, by simp, fun j => by rw [if_pos hk, hrow]; ring⟩
        · obtain ⟨l, m, e1, e2⟩ := h1.rows k
          exact ⟨l, m, e1, fun j => by rw [if_neg hk, e2]⟩
      · cases hA
    · rw [hq']
      dsimp only
      rw [u32_small (by have := h1.mass.bound; omega)]
      exact h1.mass.add hpt
  cases hr : q.roomForPlane M tiny with
  | none => rw [hr] at ha; cases ha
  | some q1 =>
    rw [hr] at ha
    have h1 : FlatQ M w lo hi N q1 := by
      unfold Qef.roomForPlane at hr
      split at hr
      · exact (flatQ_compress ht hw h hr).1
      · cases hr; exact h
    simp only [Option.bind_eq_bind, Option.bind_some, dotN_real] at ha
    cases hA : Qef.writeRow M q1.A q1.usedRows (Fin.snoc (α := fun _ => ℝ) n (dotProduct n pt)) with
    | none => rw [hA] at ha; cases ha
    | some A =>
      rw [hA] at ha
      cases ha
      exact key q1 h1 A hA rfl

theorem flatQ_merge (ht : 0 < tiny) (hw : FlatRow tiny w) {q q' : Qef ℝ d} (h : FlatQ M w lo hi N q) {s : QState ℝ d} {N' : Nat}
    (hs : FlatS w lo hi N' s) (hN : N + N' < 2 ^ 32) (hM : 2 * (d + 1) ≤ M) (ha : q.merge M tiny s = some q') :
    FlatQ M w lo hi (N + N') q' := by
  obtain ⟨q'', e, hinv, -⟩ := merge_spec ht hM h.inv (fun _ => flat_clean ht hw h.rows) s
  rw [ha] at e; cases e
  have h0 : FlatQ M w lo hi (N + N') (q.mergeMass s) := by
    have hm : FlatMass w lo hi (N + N') (q.mergeMass s).pointsSum (q.mergeMass s).pointsCount := by
      unfold Qef.mergeMass
      split_ifs
      · exact hs.mass.mono (fun _ => le_refl _) (fun _ => le_refl _) (Nat.le_add_left _ _)
      · dsimp only
        rw [u32_small (by have := h.mass.bound; have := hs.mass.bound; omega)]
        exact h.mass.add hs.mass
      · exact h.mass.mono (fun _ => le_refl _) (fun _ => le_refl _) (Nat.le_add_right _ _)
    refine ⟨?_, ?_, hm⟩
    · rw [mergeMass_eq]; exact ⟨h.inv.rows, h.inv.zero⟩
    · rw [mergeMass_eq]; exact h.rows
  unfold Qef.merge at ha
  dsimp only at ha
  cases hr : (q.mergeMass s).roomForMerge M tiny with
  | none => rw [hr] at ha; cases ha
  | some q1 =>
    rw [hr] at ha
    have h1 : FlatQ M w lo hi (N + N') q1 ∧ q1.usedRows + (d + 1) ≤ M := by
      unfold Qef.roomForMerge at hr
      split at hr
      · have := flatQ_compress ht hw h0 hr
        exact ⟨this.1, by omega⟩
      · cases hr; exact ⟨h0, by omega⟩
    simp only [Option.bind_eq_bind, Option.bind_some] at ha
    rw [merge_rows s.a q1.usedRows h1.2] at ha
    simp only [Option.bind_some, Option.some.injEq] at ha
    refine ⟨hinv, ?_, ?_⟩
    · rw [← ha]
      dsimp only
      intro k
      by_cases hk : q1.usedRows ≤ k ∧ k - q1.usedRows < d + 1
      · obtain ⟨l, m, e1, e2⟩ := hs.rows ⟨k - q1.usedRows, hk.2⟩
        exact ⟨l, m, e1, fun j => by beta_reduce; rw [dif_pos hk]; exact e2 j⟩
      · obtain ⟨l, m, e1, e2⟩ := h1.1.rows k
        exact ⟨l, m, e1, fun j => by beta_reduce; rw [dif_neg hk, e2]⟩
    · rw [← ha]
      exact h1.1.mass

theorem flatQ_state {bits : Nat} (ht : 0 < tiny) (hw : FlatRow tiny w) {q q' : Qef ℝ d} {s : QState ℝ d} (h : FlatQ M w lo hi N q)
    (hs : q.state M bits tiny = some (q', s)) : FlatQ M w lo hi N q' ∧ FlatS w lo hi N s := by
  unfold Qef.state at hs
  cases hc : q.compressMatrix M tiny with
  | none => rw [hc] at hs; cases hs
  | some q1 =>
    rw [hc] at hs
    obtain ⟨h1, h2, h3, -⟩ := flatQ_compress ht hw h hc
    simp only [Option.bind_eq_bind, Option.bind_some] at hs
    split at hs
    · cases hs
      refine ⟨h1, ?_, h1.mass⟩
      intro r
      obtain ⟨l, m, e1, e2⟩ := h1.rows r
      refine ⟨l, m, e1, fun c => ?_⟩
      dsimp only
      by_cases hcr : c < r
      · rw [if_pos hcr, ← e2, h3 c r hcr r.2]
      · rw [if_neg hcr, if_neg hcr, e2]
    · cases hs

theorem flat_eval {q : Qef ℝ d} (h : FlatQ M w lo hi N q) {x : VecN ℝ d} (hx : ∑ i : Fin d, w i.castSucc * x i = w (Fin.last d)) :
    q.eval M x = some 0 := by
  rw [eval_eq q h.inv.rows]
  congr 1
  unfold qerr
  apply Finset.sum_eq_zero
  intro k _
  rw [rowDot_hom]
  obtain ⟨l, m, -, e⟩ := h.rows k
  have : dotProduct (fun c : Fin d => q.A c.castSucc k) x = l * w (Fin.last d) := by
    rw [← hx, Finset.mul_sum]
    unfold dotProduct
    apply Finset.sum_congr rfl
    intro i _
    beta_reduce
    rw [e]; ring
  rw [this, e]; ring

end

theorem flatQ_solve_any {M : Nat} {tiny : ℝ} {w : Fin (d + 2 + 1) → ℝ} {lo hi lo' hi' : VecN ℝ (d + 2)} {N : Nat} (ht : 0 < tiny) (hw : FlatRow tiny w)
    {q q' : Qef ℝ (d + 2)} {x : VecN ℝ (d + 2)} (h : FlatQ M w lo hi N q) (hs : q.solve M tiny lo' hi' = some (q', x)) :
    FlatQ M w lo hi N q' ∧ ∑ i : Fin (d + 2), w i.castSucc * massPoint q i = w (Fin.last (d + 2)) ∧ x = Qef.clampV (massPoint q) lo' hi' ∧
      massPoint q' = massPoint q ∧ ∀ i, lo i ≤ massPoint q i ∧ massPoint q i ≤ hi i := by
  obtain ⟨q1, hc, hcnt, f1, f2, f3, f4, -, -, -, -, hx, -⟩ := solve_eq hs
  obtain ⟨h1, h2, h3, h4⟩ := flatQ_compress ht hw h hc
  have hcnt' : (q1.pointsCount : ℝ) ≠ 0 := Nat.cast_ne_zero.2 hcnt
  have hpos : (0 : ℝ) < q1.pointsCount := lt_of_le_of_ne (Nat.cast_nonneg _) (Ne.symm hcnt')
  have hq' : FlatQ M w lo hi N q' := by
    refine ⟨⟨by rw [f2]; exact h1.inv.rows, fun hlt => ?_⟩, by rw [f1]; exact h1.rows, by rw [f3, f4]; exact h1.mass⟩
    rw [f2, h2] at hlt; omega
  have hmp : ∑ i : Fin (d + 2), w i.castSucc * (q1.pointsSum i / q1.pointsCount) = w (Fin.last (d + 2)) := by
    have := h1.mass.on
    have e : ∑ i : Fin (d + 2), w i.castSucc * (q1.pointsSum i / q1.pointsCount) =
        (∑ i : Fin (d + 2), w i.castSucc * q1.pointsSum i) / q1.pointsCount := by
      rw [div_eq_mul_inv, Finset.sum_mul]
      apply Finset.sum_congr rfl
      intro i _; ring
    rw [e, this, mul_div_assoc, div_self hcnt', mul_one]
  have hun : q1.unclamped = fun i => q1.pointsSum i / q1.pointsCount := by
    rw [unclamped_real]
    dsimp only
    have hz : q1.leftMat.transpose.mulVec (fun r => q1.A (Fin.last (d + 2)) r) -
        (q1.leftMat.transpose * q1.leftMat).mulVec (fun i => q1.pointsSum i / q1.pointsCount) = 0 := by
      rw [← Matrix.mulVec_mulVec, ← Matrix.mulVec_sub]
      have : (fun r : Fin (d + 2) => q1.A (Fin.last (d + 2)) r) -
          q1.leftMat.mulVec (fun i => q1.pointsSum i / q1.pointsCount) = 0 := by
        funext r
        obtain ⟨l, m, -, e⟩ := h1.rows r
        simp only [Pi.sub_apply, Matrix.mulVec, dotProduct, Qef.leftMat, Pi.zero_apply]
        rw [e, ← hmp, Finset.mul_sum, ← Finset.sum_sub_distrib]
        apply Finset.sum_eq_zero
        intro i _
        rw [e]; ring
      rw [this, Matrix.mulVec_zero]
    rw [hz, Matrix.mulVec_zero, zero_add]
  have hmass : (fun i => q1.pointsSum i / q1.pointsCount) = massPoint q := by rw [h4]; rfl
  refine ⟨hq', ?_, ?_, ?_, ?_⟩
  · rw [← hmass]; exact hmp
  · rw [hx, hun, hmass]
  · rw [← hmass]; funext i; simp only [massPoint, f3, f4]
  · rw [← hmass]
    intro i
    exact ⟨(le_div_iff₀ hpos).2 (h1.mass.lower i), (div_le_iff₀ hpos).2 (h1.mass.upper i)⟩

theorem flatQ_solve {M : Nat} {tiny : ℝ} {w : Fin (d + 2 + 1) → ℝ} {lo hi : VecN ℝ (d + 2)} {N : Nat} (ht : 0 < tiny) (hw : FlatRow tiny w)
    {q q' : Qef ℝ (d + 2)} {x : VecN ℝ (d + 2)} (h : FlatQ M w lo hi N q) (hs : q.solve M tiny lo hi = some (q', x)) :
    FlatQ M w lo hi N q' ∧ ∑ i : Fin (d + 2), w i.castSucc * x i = w (Fin.last (d + 2)) ∧ q'.eval M x = some 0 ∧ x = massPoint q := by
  obtain ⟨hq', hmp, hx, -, hbox⟩ := flatQ_solve_any ht hw h hs
  have hcl : x = massPoint q := by
    rw [hx]
    exact clamp_id hbox
  have hxm : ∑ i : Fin (d + 2), w i.castSucc * x i = w (Fin.last (d + 2)) := by rw [hcl]; exact hmp
  exact ⟨hq', hxm, flat_eval hq' hxm, hcl⟩

/-- Operations on a solver that keep the equations to one plane. -/
def FlatOp (w : Fin (d + 2 + 1) → ℝ) (lo hi : VecN ℝ (d + 2)) : QefOp ℝ (d + 2) → Prop
  | .addPlane pt n => (∀ i, n i = w i.castSucc) ∧ dotProduct n pt = w (Fin.last (d + 2)) ∧ (∀ i, lo i ≤ pt i) ∧ ∀ i, pt i ≤ hi i
  | .solve _ _ => True
  | _ => False

theorem flat_cleanRun {M bits : Nat} {tiny : ℝ} {w : Fin (d + 2 + 1) → ℝ} {lo hi : VecN ℝ (d + 2)} (ht : 0 < tiny) (hw : FlatRow tiny w)
    (hM : d + 2 + 1 < M) : ∀ (ops : List (QefOp ℝ (d + 2))) (N : Nat) (q : Qef ℝ (d + 2)), FlatQ M w lo hi N q → N + ops.length < 2 ^ 32 →
    (∀ op ∈ ops, FlatOp w lo hi op) → CleanRun M bits tiny q ops := by
  intro ops
  induction ops with
  | nil => intro N q _ _ _; trivial
  | cons op ops ih =>
    intro N q h hN hop
    have hcl := flat_clean ht hw h.rows
    rw [List.length_cons] at hN
    refine ⟨?_, ?_⟩
    · cases op <;> first | exact hcl | exact fun _ => hcl | trivial
    · intro q' hq'
      have hop' := hop op (by simp)
      refine ih (N + 1) q' ?_ (by omega) fun o ho => hop o (by simp [ho])
      cases op with
      | addPlane pt n =>
        obtain ⟨h1, h2, h3, h4⟩ := hop'
        exact flatQ_add ht hw h h1 h2 h3 h4 (by omega) hM hq'
      | solve lo' hi' =>
        simp only [QefOp.apply, Option.map_eq_some_iff] at hq'
        obtain ⟨⟨q1, x⟩, hs, rfl⟩ := hq'
        have := (flatQ_solve_any ht hw h hs).1
        exact ⟨this.inv, this.rows, this.mass.mono (fun _ => le_refl _) (fun _ => le_refl _) (Nat.le_succ _)⟩
      | _ => exact hop'.elim

/-- A run of additions of planes. -/
theorem flatQ_run_planes {M bits : Nat} {tiny : ℝ} {w : Fin (d + 2 + 1) → ℝ} {lo hi : VecN ℝ (d + 2)} (ht : 0 < tiny) (hw : FlatRow tiny w)
    (hM : d + 2 + 1 < M) {α : Type} (l : List α) (pt n : α → VecN ℝ (d + 2)) (hn : ∀ a ∈ l, ∀ i, n a i = w i.castSucc)
    (hp : ∀ a ∈ l, dotProduct (n a) (pt a) = w (Fin.last (d + 2))) (hlo : ∀ a ∈ l, ∀ i, lo i ≤ pt a i)
    (hhi : ∀ a ∈ l, ∀ i, pt a i ≤ hi i) {q q' : Qef ℝ (d + 2)} {N : Nat} (h : FlatQ M w lo hi N q) (hN : N + l.length < 2 ^ 32)
    (hr : runOps M bits tiny q (l.map fun a => .addPlane (pt a) (n a)) = some q') : FlatQ M w lo hi (N + l.length) q' := by
  induction l generalizing q N with
  | nil => cases hr; exact h
  | cons a l ih =>
    rw [List.map_cons, runOps, List.foldlM_cons] at hr
    cases ha : q.addPlane M tiny (pt a) (n a) with
    | none => simp only [QefOp.apply, ha] at hr; cases hr
    | some q1 =>
      simp only [QefOp.apply, ha, Option.bind_eq_bind, Option.bind_some] at hr
      rw [List.length_cons] at hN
      have h1 := flatQ_add ht hw h (hn a (by simp)) (hp a (by simp)) (hlo a (by simp)) (hhi a (by simp)) (by omega) hM ha
      have := ih (fun b hb => hn b (by simp [hb])) (fun b hb => hp b (by simp [hb])) (fun b hb => hlo b (by simp [hb]))
        (fun b hb => hhi b (by simp [hb])) h1 (by omega) hr
      rw [List.length_cons]
      exact (show N + 1 + l.length = N + (l.length + 1) by omega) ▸ this

/-- A run of merges. -/
theorem flatQ_run_merges {M bits : Nat} {tiny : ℝ} {w : Fin (d + 2 + 1) → ℝ} {lo hi : VecN ℝ (d + 2)} (ht : 0 < tiny) (hw : FlatRow tiny w)
    (hM : 2 * (d + 2 + 1) ≤ M) {α : Type} (l : List α) (st : α → QState ℝ (d + 2)) (B : α → Nat) (hs : ∀ a ∈ l, FlatS w lo hi (B a) (st a))
    {q q' : Qef ℝ (d + 2)} {N : Nat} (h : FlatQ M w lo hi N q) (hN : N + (l.map B).sum < 2 ^ 32)
    (hr : runOps M bits tiny q (l.map fun a => .merge (st a)) = some q') : FlatQ M w lo hi (N + (l.map B).sum) q' := by
  induction l generalizing q N with
  | nil => cases hr; simpa using h
  | cons a l ih =>
    rw [List.map_cons, runOps, List.foldlM_cons] at hr
    cases ha : q.merge M tiny (st a) with
    | none => simp only [QefOp.apply, ha] at hr; cases hr
    | some q1 =>
      simp only [QefOp.apply, ha, Option.bind_eq_bind, Option.bind_some] at hr
      rw [List.map_cons, List.sum_cons] at hN
      have h1 := flatQ_merge ht hw h (hs a (by simp)) (by omega) hM ha
      have := ih (fun b hb => hs b (by simp [hb])) h1 (by omega) hr
      rw [List.map_cons, List.sum_cons]
      exact (show N + B a + (l.map B).sum = N + (B a + (l.map B).sum) by omega) ▸ this

end Isomesh
