import Verif.Model.FillCrash
import Verif.Proofs.FillEdges

/-! `fill` with exceptions runs like `fill` up to the first exception. -/

set_option linter.unusedSectionVars false

namespace Isomesh
open Spec

variable {K : Type} [Add K] [Sub K] [Mul K] [Div K] [Zero K] [IntCast K] [LinearOrder K]

/-- No record of the list was one at which an exception is thrown. -/
def NoFail (fails : IVec3 → Bool) (l : List (GridEdge K)) : Prop := ∀ e ∈ l, fails e.lesser = false

/-- The run `r` either ended like the run without exceptions, which ended in `s'`, or stopped at the first failing record. -/
def Follows (fails : IVec3 → Bool) (r : Option (Flow (EdgeState K))) (s' : EdgeState K) : Prop :=
  (NoFail fails s'.edges ∧ r = some (.next s')) ∨
  ∃ t e, r = some (.thrown t) ∧ NoFail fails t.edges ∧ t.edges ++ [e] <+: s'.edges ∧ fails e.lesser = true

/-- A statement and its version with exceptions. -/
def Sims (fails : IVec3 → Bool) (B : EdgeState K → Option (EdgeState K)) (BE : EdgeState K → Option (Flow (EdgeState K))) : Prop :=
  ∀ s s', B s = some s' → s.edges <+: s'.edges ∧ (NoFail fails s.edges → Follows fails (BE s) s')

theorem sims_loop {fails : IVec3 → Bool} {body : EdgeState K → Int → Option (EdgeState K)} {bodyE : EdgeState K → Int → Option (Flow (EdgeState K))}
    (h : ∀ i, Sims fails (fun s => body s i) (fun s => bodyE s i)) :
    ∀ is : List Int, Sims fails (fun s => is.foldlM (fun s i => body s i) s) (fun s => loopE bodyE is s) := by
  intro is
  induction is with
  | nil =>
    intro s s' e
    simp only [List.foldlM_nil, Option.pure_def, Option.some.injEq] at e
    subst e
    exact ⟨List.prefix_refl _, fun hn => Or.inl ⟨hn, rfl⟩⟩
  | cons i is ih =>
    intro s s' e
    simp only [List.foldlM_cons, Option.bind_eq_bind, Option.bind_eq_some_iff] at e
    obtain ⟨s1, e1, e2⟩ := e
    obtain ⟨p1, f1⟩ := h i s s1 e1
    obtain ⟨p2, f2⟩ := ih s1 s' e2
    refine ⟨p1.trans p2, fun hn => ?_⟩
    beta_reduce
    rw [loopE]
    rcases f1 hn with ⟨n1, r1⟩ | ⟨t, e, r1, n1, pt, fe⟩
    · simp only at r1
      rw [r1]
      exact f2 n1
    · simp only at r1
      rw [r1]
      exact Or.inr ⟨t, e, rfl, n1, pt.trans p2, fe⟩

theorem sims_forLT {fails : IVec3 → Bool} {body : EdgeState K → Int → Option (EdgeState K)} {bodyE : EdgeState K → Int → Option (Flow (EdgeState K))}
    (h : ∀ i, Sims fails (fun s => body s i) (fun s => bodyE s i)) (lo hi : Int) :
    Sims fails (fun s => forLT lo hi s body) (fun s => forLTE lo hi s bodyE) := by
  have := sims_loop h ((List.range (hi - lo).toNat).map fun (i : Nat) => lo + i)
  simp only [List.foldlM_map] at this
  exact this

theorem sims_forLE {fails : IVec3 → Bool} {body : EdgeState K → Int → Option (EdgeState K)} {bodyE : EdgeState K → Int → Option (Flow (EdgeState K))}
    (h : ∀ i, Sims fails (fun s => body s i) (fun s => bodyE s i)) (lo hi : Int) :
    Sims fails (fun s => forLE lo hi s body) (fun s => forLEE lo hi s bodyE) := sims_forLT h lo (hi + 1)

theorem sims_andThen {fails : IVec3 → Bool} {B : EdgeState K → Option (EdgeState K)} {BE : EdgeState K → Option (Flow (EdgeState K))}
    (h : Sims fails B BE) {k : EdgeState K → EdgeState K} (hk : ∀ s, (k s).edges = s.edges) :
    Sims fails (fun s => B s >>= fun s => some (k s)) (fun s => Flow.andThen (BE s) fun s => some (k s)) := by
  intro s s' e
  simp only [Option.bind_eq_bind, Option.bind_eq_some_iff, Option.some.injEq] at e
  obtain ⟨s1, e1, rfl⟩ := e
  obtain ⟨p1, f1⟩ := h s s1 e1
  rw [hk]
  refine ⟨p1, fun hn => ?_⟩
  unfold Follows
  rw [hk]
  beta_reduce
  rcases f1 hn with ⟨n1, r1⟩ | ⟨t, e, r1, n1, pt, fe⟩
  · rw [r1]
    exact Or.inl ⟨n1, rfl⟩
  · rw [r1]
    exact Or.inr ⟨t, e, rfl, n1, pt, fe⟩

/-- What a body does to the storage. -/
def BodyOk (values : List K) (body : EdgeState K → Int → Int → Int → Option (EdgeState K)) : Prop :=
  ∀ s x y z s', body s x y z = some s' → ∃ v1 v2, values[s.idx1]? = some v1 ∧ values[s.idx2]? = some v2 ∧
    ((decide (v1 ≤ 0) = decide (v2 ≤ 0) ∧ s'.edges = s.edges) ∨
      (decide (v1 ≤ 0) ≠ decide (v2 ≤ 0) ∧ ∃ e : GridEdge K, e.lesser = ⟨x, y, z⟩ ∧ s'.edges = s.edges ++ [e]))

theorem addEdge_some {l l' : List (GridEdge K)} {e : GridEdge K} (h : addEdge l e = some l') : l' = l ++ [e] := by
  unfold addEdge at h
  split at h
  · exact (Option.some.inj h).symm
  · cases h

theorem bodyOk_X (g : Grid K) (f : ScalarField K) (sv : ZeroFinder K) (values : List K) (mat : List (Option Material)) :
    BodyOk values (edgeBodyX g f sv values mat) := by
  intro s x y z s' h
  unfold edgeBodyX at h
  simp only [Option.bind_eq_bind, Option.bind_eq_some_iff] at h
  obtain ⟨v1, h1, v2, h2, h⟩ := h
  refine ⟨v1, v2, h1, h2, ?_⟩
  by_cases hs : decide (v1 ≤ 0) = decide (v2 ≤ 0)
  · simp only [hs, ne_eq, not_true_eq_false, if_false, Option.some.injEq, Option.bind_some] at h
    subst h
    exact Or.inl ⟨hs, rfl⟩
  · simp only [ne_eq, hs, not_false_eq_true, if_true, Option.bind_eq_some_iff, Option.some.injEq] at h
    split at h <;>
    · simp only [Option.bind_eq_some_iff, Option.some.injEq] at h
      obtain ⟨m, hm, l, hl, he⟩ := h
      exact Or.inr ⟨hs, _, rfl, by rw [← he]; exact addEdge_some hl⟩

theorem bodyOk_Y (g : Grid K) (f : ScalarField K) (sv : ZeroFinder K) (values : List K) (mat : List (Option Material)) :
    BodyOk values (edgeBodyY g f sv values mat) := by
  intro s x y z s' h
  unfold edgeBodyY at h
  simp only [Option.bind_eq_bind, Option.bind_eq_some_iff] at h
  obtain ⟨v1, h1, v2, h2, h⟩ := h
  refine ⟨v1, v2, h1, h2, ?_⟩
  by_cases hs : decide (v1 ≤ 0) = decide (v2 ≤ 0)
  · simp only [hs, ne_eq, not_true_eq_false, if_false, Option.some.injEq, Option.bind_some] at h
    subst h
    exact Or.inl ⟨hs, rfl⟩
  · simp only [ne_eq, hs, not_false_eq_true, if_true, Option.bind_eq_some_iff, Option.some.injEq] at h
    split at h <;>
    · simp only [Option.bind_eq_some_iff, Option.some.injEq] at h
      obtain ⟨m, hm, l, hl, he⟩ := h
      exact Or.inr ⟨hs, _, rfl, by rw [← he]; exact addEdge_some hl⟩

theorem bodyOk_Z (g : Grid K) (f : ScalarField K) (sv : ZeroFinder K) (values : List K) (mat : List (Option Material)) :
    BodyOk values (edgeBodyZ g f sv values mat) := by
  intro s x y z s' h
  unfold edgeBodyZ at h
  simp only [Option.bind_eq_bind, Option.bind_eq_some_iff] at h
  obtain ⟨v1, h1, v2, h2, h⟩ := h
  refine ⟨v1, v2, h1, h2, ?_⟩
  by_cases hs : decide (v1 ≤ 0) = decide (v2 ≤ 0)
  · simp only [hs, ne_eq, not_true_eq_false, if_false, Option.some.injEq, Option.bind_some] at h
    subst h
    exact Or.inl ⟨hs, rfl⟩
  · simp only [ne_eq, hs, not_false_eq_true, if_true, Option.bind_eq_some_iff, Option.some.injEq] at h
    split at h <;>
    · simp only [Option.bind_eq_some_iff, Option.some.injEq] at h
      obtain ⟨m, hm, l, hl, he⟩ := h
      exact Or.inr ⟨hs, _, rfl, by rw [← he]; exact addEdge_some hl⟩

theorem sims_body {values : List K} {body : EdgeState K → Int → Int → Int → Option (EdgeState K)} (h : BodyOk values body)
    (fails : IVec3 → Bool) (x y z : Int) :
    Sims fails (fun s => body s x y z) (fun s => edgeBodyE body fails values s x y z) := by
  intro s s' e
  obtain ⟨v1, v2, h1, h2, hc⟩ := h s x y z s' e
  unfold Follows edgeBodyE
  beta_reduce at e ⊢
  rw [h1, h2]
  dsimp only
  rw [e]
  rcases hc with ⟨hs, he⟩ | ⟨hs, ed, hl, he⟩
  · rw [he]
    refine ⟨List.prefix_refl _, fun hn => Or.inl ⟨hn, ?_⟩⟩
    rw [if_neg (by simp [hs])]
    rfl
  · rw [he]
    refine ⟨List.prefix_append _ _, fun hn => ?_⟩
    by_cases hf : fails ⟨x, y, z⟩ = true
    · refine Or.inr ⟨s, ed, if_pos ⟨hs, hf⟩, hn, List.prefix_refl _, by rw [hl]; exact hf⟩
    · refine Or.inl ⟨?_, ?_⟩
      · intro e' he'
        rcases List.mem_append.1 he' with h' | h'
        · exact hn e' h'
        · simp only [List.mem_singleton] at h'
          rw [h', hl]
          simpa using hf
      · rw [if_neg (by simp [hf])]
        rfl

theorem noFail_nil (fails : IVec3 → Bool) : NoFail fails ([] : List (GridEdge K)) := by
  intro e he
  cases he

theorem fillXE_follows {g : Grid K} {f : ScalarField K} {sv : ZeroFinder K} {values : List K} {mat : List (Option Material)} {s' : EdgeState K}
    (h : fillX g f sv values mat = some s') (fails : IVec3 → Bool) : Follows fails (fillXE g f sv fails values mat) s' := by
  refine (sims_forLE (fails := fails) (fun y => ?_) (-g.half) g.half _ _ h).2 (noFail_nil _)
  exact sims_andThen (k := fun s => { s with idx1 := u32 (s.idx1 + u32 (g.size + 1)), idx2 := u32 (s.idx2 + u32 (g.size + 1)) })
    (sims_forLT (fun x => sims_forLE (fun z => sims_body (bodyOk_X g f sv values mat) fails x y z) _ _) _ _) fun _ => rfl

theorem fillYE_follows {g : Grid K} {f : ScalarField K} {sv : ZeroFinder K} {values : List K} {mat : List (Option Material)} {s' : EdgeState K}
    (h : fillY g f sv values mat = some s') (fails : IVec3 → Bool) : Follows fails (fillYE g f sv fails values mat) s' :=
  (sims_forLT (fails := fails) (fun y => sims_forLE (fun x => sims_forLE (fun z => sims_body (bodyOk_Y g f sv values mat) fails x y z) _ _) _ _)
    (-g.half) g.half _ _ h).2 (noFail_nil _)

theorem fillZE_follows {g : Grid K} {f : ScalarField K} {sv : ZeroFinder K} {values : List K} {mat : List (Option Material)} {s' : EdgeState K}
    (h : fillZ g f sv values mat = some s') (fails : IVec3 → Bool) : Follows fails (fillZE g f sv fails values mat) s' := by
  refine (sims_forLE (fails := fails) (fun y => sims_forLE (fun x => ?_) _ _) (-g.half) g.half _ _ h).2 (noFail_nil _)
  exact sims_andThen (k := fun s => { s with idx1 := u32 (s.idx1 + 1), idx2 := u32 (s.idx2 + 1) })
    (sims_forLT (fun z => sims_body (bodyOk_Z g f sv values mat) fails x y z) _ _) fun _ => rfl

/-- The part of a storage that is there when the exception is thrown. -/
theorem follows_cases {fails : IVec3 → Bool} {r : Option (Flow (EdgeState K))} {s' : EdgeState K} (h : Follows fails r s') :
    ((∀ e ∈ s'.edges, fails e.lesser = false) ∧ r = some (.next s')) ∨
    ((∃ e ∈ s'.edges, fails e.lesser = true) ∧ ∃ t, r = some (.thrown t) ∧ t.edges = s'.edges.takeWhile fun e => !fails e.lesser) := by
  rcases h with ⟨n, e⟩ | ⟨t, e, hr, n, ⟨r', hp⟩, hf⟩
  · exact Or.inl ⟨n, e⟩
  · refine Or.inr ⟨⟨e, by rw [← hp]; simp, hf⟩, t, hr, ?_⟩
    rw [← hp, List.append_assoc, List.takeWhile_append_of_pos (by intro a ha; simp [n a ha])]
    simp [hf]

end Isomesh
