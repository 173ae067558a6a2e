import Verif.Model.DcNodeMem
import Mathlib.Tactic.Linarith

/-! Property C66: allocation failures during `DC_Octree::build`. -/

namespace Isomesh

open scoped Classical

/-! ### Specification -/

/-- A tree of nodes given by their addresses; `null` is a null pointer. -/
inductive RawTree where
  | null
  | leaf (a : Nat)
  | inner (a : Nat) (ch : Fin 8 → RawTree)

/-- The addresses of the nodes of a tree. -/
def RawTree.Has : RawTree → Nat → Prop
  | .null, _ => False
  | .leaf a, x => x = a
  | .inner a ch, x => x = a ∨ ∃ i, (ch i).Has x

/-- No node occurs twice. -/
def RawTree.Sep : RawTree → Prop
  | .null => True
  | .leaf _ => True
  | .inner a ch => (∀ i, (ch i).Sep ∧ ¬ (ch i).Has a) ∧ ∀ i j, i ≠ j → ∀ x, (ch i).Has x → ¬ (ch j).Has x

/-- Every subdivided node has eight children. -/
def RawTree.Full : RawTree → Prop
  | .null => False
  | .leaf _ => True
  | .inner _ ch => ∀ i, (ch i).Full

/-- The pointer leads to the tree. -/
def RawTree.Rep (mem : Nat → Option RawNode) : RawTree → RawPtr → Prop
  | .null, p => p = .null
  | .leaf a, p => p = .node a ∧ ∃ n, mem a = some n ∧ n.isLeaf = true
  | .inner a ch, p => p = .node a ∧ ∃ n, mem a = some n ∧ n.isLeaf = false ∧ ∀ i, (ch i).Rep mem (n.ptr i)

/-- The number of nodes created by `build` for an octree of size `2 ^ k`, apart from the root. -/
def rawAllocs : Nat → Nat
  | 0 => 0
  | k + 1 => 8 + 8 * rawAllocs k

/-! ### Deletion -/

theorem andThen_ok (s : RawState) (f : RawState → RawRes) : (RawRes.ok s).andThen f = f s := rfl

/-- The state after freeing the nodes of a tree. -/
noncomputable def RawState.clear (s : RawState) (P : Nat → Prop) : RawState := { s with mem := fun x => if P x then none else s.mem x }

theorem RawState.ext' {s s' : RawState} (h : ∀ x, s.mem x = s'.mem x) (h1 : s.next = s'.next) (h2 : s.budget = s'.budget) : s = s' := by
  cases s; cases s'
  simp only at h h1 h2
  subst h1 h2
  congr
  funext x; exact h x

theorem rep_congr {mem mem' : Nat → Option RawNode} : ∀ (t : RawTree) (p : RawPtr), (∀ x, t.Has x → mem' x = mem x) → t.Rep mem p → t.Rep mem' p
  | .null, _, _, h => h
  | .leaf a, p, hx, ⟨h1, n, h2, h3⟩ => ⟨h1, n, by rw [hx a rfl]; exact h2, h3⟩
  | .inner a ch, p, hx, ⟨h1, n, h2, h3, h4⟩ =>
    ⟨h1, n, by rw [hx a (Or.inl rfl)]; exact h2, h3, fun i => rep_congr (ch i) _ (fun x hh => hx x (Or.inr ⟨i, hh⟩)) (h4 i)⟩

/-- Body of the loop of `collapse`. -/
theorem collapse_fold {a : Nat} {ch : Fin 8 → RawTree}
    (ih : ∀ i s p, (ch i).Rep s.mem p → (ch i).Sep → rawDelete p s = some (s.clear (ch i).Has)) :
    ∀ (l : List (Fin 8)) (s : RawState) (n : RawNode), l.Nodup → s.mem a = some n → n.isLeaf = true →
      (∀ i ∈ l, (ch i).Rep s.mem (n.ptr i)) → (∀ i ∈ l, (ch i).Sep ∧ ¬ (ch i).Has a) →
      (∀ i ∈ l, ∀ j ∈ l, i ≠ j → ∀ x, (ch i).Has x → ¬ (ch j).Has x) →
      l.foldlM (fun s i => (do
        let n ← s.mem a
        let s ← rawDelete (n.ptr i) s
        let n ← s.mem a
        some (s.put a { n with ptr := Function.update n.ptr i .null }) : Option RawState)) s =
        some ((s.clear fun x => ∃ i ∈ l, (ch i).Has x).put a ⟨true, fun i => if i ∈ l then .null else n.ptr i⟩)
  | [], s, n, _, h, hl, _, _, _ => by
    simp only [List.foldlM_nil, List.not_mem_nil, false_and, exists_false, if_false]
    have : s = (s.clear fun _ => False).put a ⟨true, n.ptr⟩ := by
      refine RawState.ext' ?_ rfl rfl
      intro x
      simp only [RawState.clear, RawState.put, if_false, Function.update_apply]
      split_ifs with hx
      · subst hx; rw [h]; cases n; simp only at hl; subst hl; rfl
      · rfl
    conv_lhs => rw [this]
    rfl
  | i :: l, s, n, hn, h, hl, hr, hs, hd => by
    rw [List.nodup_cons] at hn
    have d := ih i s (n.ptr i) (hr i (by simp)) (hs i (by simp)).1
    have ha : (s.clear (ch i).Has).mem a = some n := by simp [RawState.clear, (hs i (by simp)).2, h]
    rw [List.foldlM_cons]
    simp only [h, d, ha, Option.bind_eq_bind, Option.bind_some]
    have rest := collapse_fold ih l ((s.clear (ch i).Has).put a { n with ptr := Function.update n.ptr i .null })
      { n with ptr := Function.update n.ptr i .null } hn.2 (by simp [RawState.put]) hl ?_ (fun j hj => hs j (by simp [hj]))
      (fun j hj k hk => hd j (by simp [hj]) k (by simp [hk]))
    · simp only [Option.bind_eq_bind] at rest
      rw [rest]
      congr 1
      refine RawState.ext' ?_ rfl rfl
      intro x
      simp only [RawState.clear, RawState.put, Function.update_apply]
      by_cases hx : x = a
      · simp only [hx, if_true]
        congr 2
        funext j
        simp only [List.mem_cons]
        by_cases hj : j = i
        · simp [hj]
        · simp [hj]
      · simp only [hx, if_false, List.mem_cons, exists_eq_or_imp]
        by_cases h1 : (ch i).Has x <;> by_cases h2 : ∃ j ∈ l, (ch j).Has x <;> simp [h1, h2]
    · intro j hj
      have hij : j ≠ i := fun e => hn.1 (e ▸ hj)
      simp only [Function.update_apply, hij, if_false]
      refine rep_congr (ch j) _ ?_ (hr j (by simp [hj]))
      intro x hx
      have hxa : x ≠ a := fun e => (hs j (by simp [hj])).2 (e ▸ hx)
      have hxi : ¬ (ch i).Has x := hd j (by simp [hj]) i (by simp) hij x hx
      simp [RawState.put, RawState.clear, Function.update_apply, hxa, hxi]

theorem rawDelete_spec : ∀ (t : RawTree) (s : RawState) (p : RawPtr), t.Rep s.mem p → t.Sep → rawDelete p s = some (s.clear t.Has)
  | .null, s, p, h, _ => by
    obtain rfl : p = .null := h
    rw [rawDelete]
    congr 1
    refine RawState.ext' ?_ rfl rfl
    intro x; simp [RawState.clear, RawTree.Has]
  | .leaf a, s, p, h, _ => by
    obtain ⟨rfl, n, h2, h3⟩ := h
    rw [rawDelete]
    simp only [h2, h3, if_true]
    congr 1
    refine RawState.ext' ?_ rfl rfl
    intro x
    simp only [RawState.clear, RawTree.Has, RawState.free, Function.update_apply]
    by_cases hx : x = a <;> simp [hx]
  | .inner a ch, s, p, h, hs => by
    obtain ⟨rfl, n, h2, h3, h4⟩ := h
    have ih := fun i => rawDelete_spec (ch i)
    rw [rawDelete]
    simp only [h2, h3]
    rw [rawCollapse]
    simp only [h2]
    rw [collapse_fold (ch := ch) ih (List.finRange 8) _ { n with isLeaf := true } (List.nodup_finRange 8) (by simp [RawState.put]) rfl ?_
      (fun i _ => hs.1 i) (fun i _ j _ => hs.2 i j)]
    · simp only [Bool.false_eq_true, if_false, Option.bind_eq_bind, Option.bind_some]
      congr 1
      refine RawState.ext' ?_ rfl rfl
      intro x
      simp only [RawState.clear, RawTree.Has, RawState.free, RawState.put, Function.update_apply, List.mem_finRange, true_and]
      by_cases hx : x = a
      · simp [hx]
      · simp [hx]
    · intro i _
      refine rep_congr (ch i) _ ?_ (h4 i)
      intro x hx
      have : x ≠ a := fun e => (hs.1 i).2 (e ▸ hx)
      simp [RawState.put, Function.update_apply, this]

theorem rawCollapse_spec {a : Nat} {ch : Fin 8 → RawTree} {s : RawState} (h : (RawTree.inner a ch).Rep s.mem (.node a)) (hs : (RawTree.inner a ch).Sep) :
    rawCollapse a s = some ((s.clear fun x => ∃ i, (ch i).Has x).put a RawNode.new) := by
  obtain ⟨-, n, h2, h3, h4⟩ := h
  rw [rawCollapse]
  simp only [h2]
  rw [collapse_fold (ch := ch) (fun i => rawDelete_spec (ch i)) (List.finRange 8) _ { n with isLeaf := true } (List.nodup_finRange 8) (by simp [RawState.put]) rfl ?_
    (fun i _ => hs.1 i) (fun i _ j _ => hs.2 i j)]
  · congr 1
    refine RawState.ext' ?_ rfl rfl
    intro x
    simp only [RawState.clear, RawState.put, Function.update_apply, List.mem_finRange, true_and, if_true, RawNode.new]
    by_cases hx : x = a
    · simp [hx]
    · simp [hx]
  · intro i _
    refine rep_congr (ch i) _ ?_ (h4 i)
    intro x hx
    have : x ≠ a := fun e => (hs.1 i).2 (e ▸ hx)
    simp [RawState.put, Function.update_apply, this]

/-! ### Building -/

/-- From state `s`, the node at `a` was built to the tree `t` (perhaps incomplete). -/
structure RawBuilt (s : RawState) (a : Nat) (t : RawTree) (s' : RawState) : Prop where
  rep : t.Rep s'.mem (.node a)
  sep : t.Sep
  fresh : ∀ x, t.Has x → x = a ∨ (s.next ≤ x ∧ x < s'.next)
  frame : ∀ x, ¬ t.Has x → s'.mem x = if x < s.next then s.mem x else none
  mono : s.next ≤ s'.next

theorem rep_has {mem : Nat → Option RawNode} {t : RawTree} {a : Nat} (h : t.Rep mem (.node a)) : t.Has a := by
  cases t with
  | null => exact absurd h (by simp [RawTree.Rep])
  | leaf b => obtain ⟨h, -⟩ := h; cases h; rfl
  | inner b ch => obtain ⟨h, -⟩ := h; cases h; exact Or.inl rfl

theorem RawBuilt.unused {s s' : RawState} {a : Nat} {t : RawTree} (h : RawBuilt s a t s') (ha : a < s.next) {x : Nat} (hx : s'.next ≤ x) : s'.mem x = none := by
  have hm := h.mono
  have hn : ¬ t.Has x := by
    intro hh
    rcases h.fresh x hh with e | ⟨_, e⟩ <;> omega
  rw [h.frame x hn, if_neg (by omega)]

/-- The state after `m` children were created. -/
def subState (s : RawState) (a : Nat) (n : RawNode) (m : Nat) : RawState :=
  ⟨fun x => if x = a then some ⟨false, fun i => if i.val < m then .node (s.next + i.val) else n.ptr i⟩
    else if s.next ≤ x ∧ x < s.next + m then some RawNode.new else s.mem x, s.next + m, s.budget - m⟩

theorem subdivide_loop {s : RawState} {a : Nat} {n : RawNode} (ha : a < s.next) :
    ∀ (d m : Nat), m + d = 8 → m ≤ s.budget →
      rawFor (rawSubdivideStep a) ((List.finRange 8).drop m) (subState s a n m) =
        if 8 ≤ s.budget then .ok (subState s a n 8) else .thrown (subState s a n s.budget)
  | 0, m, hm, hb => by
    obtain rfl : m = 8 := by omega
    rw [if_pos hb]
    rfl
  | d + 1, m, hm, hb => by
    have hlt : m < (List.finRange 8).length := by simp; omega
    rw [List.drop_eq_getElem_cons hlt, List.getElem_finRange, rawFor]
    unfold rawSubdivideStep
    by_cases h0 : s.budget = m
    · have : (subState s a n m).budget = 0 := by simp [subState, h0]
      rw [if_pos this, RawRes.andThen, if_neg (by omega), h0]
    · have : (subState s a n m).budget ≠ 0 := by simp only [subState]; omega
      rw [if_neg this]
      have hne : a ≠ (subState s a n m).next := by simp only [subState]; omega
      have hmem : (Function.update (subState s a n m).mem (subState s a n m).next (some RawNode.new)) a =
          some ⟨false, fun i => if i.val < m then .node (s.next + i.val) else n.ptr i⟩ := by
        rw [Function.update_of_ne hne]; simp [subState]
      simp only [hmem, RawRes.andThen]
      have e : ∀ i : Fin 8, i.val = m → RawState.put ⟨Function.update (subState s a n m).mem (subState s a n m).next (some RawNode.new), (subState s a n m).next + 1, (subState s a n m).budget - 1⟩ a
          ⟨false, Function.update (fun i => if i.val < m then .node (s.next + i.val) else n.ptr i) i (.node ((subState s a n m).next + 1 - 1))⟩ = subState s a n (m + 1) := by
        intro i hi
        refine RawState.ext' ?_ ?_ ?_
        · intro x
          simp only [RawState.put, subState, Function.update_apply]
          by_cases hx : x = a
          · simp only [hx, if_true]
            congr 2
            funext j
            by_cases hj : j = i
            · subst hj; simp [hi]
            · have : j.val ≠ m := fun e => hj (Fin.ext (by omega))
              rw [Function.update_of_ne hj]
              by_cases h1 : j.val < m
              · rw [if_pos h1, if_pos (by omega)]
              · rw [if_neg h1, if_neg (by omega)]
          · simp only [hx, if_false]
            by_cases h1 : x = s.next + m
            · rw [if_pos h1, if_pos (by omega)]
            · rw [if_neg h1]
              by_cases h2 : s.next ≤ x ∧ x < s.next + m
              · rw [if_pos h2, if_pos (by omega)]
              · rw [if_neg h2, if_neg (by omega)]
        · simp only [RawState.put, subState]; omega
        · simp only [RawState.put, subState]; omega
      rw [e _ rfl]
      exact subdivide_loop ha d (m + 1) (by omega) (by omega)

theorem rawSubdivide_spec {s : RawState} {a : Nat} {n : RawNode} (h : s.mem a = some n) (hl : n.isLeaf = true) (ha : a < s.next) :
    rawSubdivide a s = if 8 ≤ s.budget then .ok (subState s a n 8) else .thrown (subState s a n s.budget) := by
  unfold rawSubdivide
  simp only [h, hl, if_true]
  have e : s.put a { n with isLeaf := false } = subState s a n 0 := by
    refine RawState.ext' ?_ rfl rfl
    intro x
    simp only [RawState.put, subState, Function.update_apply, Nat.not_lt_zero, if_false]
    by_cases hx : x = a
    · simp [hx]
    · have : ¬ (s.next ≤ x ∧ x < s.next + 0) := by omega
      simp [hx, this]
  have := subdivide_loop (n := n) ha 8 0 rfl (Nat.zero_le _)
  rw [List.drop_zero] at this
  rw [e, this]

/-- The tree of `subState`. -/
def subTree (s : RawState) (a m : Nat) : RawTree := .inner a fun i => if i.val < m then .leaf (s.next + i.val) else .null

theorem subState_built {s : RawState} {a : Nat} {n : RawNode} (ha : a < s.next) (hs : ∀ x, s.next ≤ x → s.mem x = none) {m : Nat} (hm : m ≤ 8)
    (hp : ∀ i : Fin 8, m ≤ i.val → n.ptr i = .null) : RawBuilt s a (subTree s a m) (subState s a n m) := by
  have has : ∀ i x, RawTree.Has (if (i : Fin 8).val < m then .leaf (s.next + i.val) else .null) x ↔ i.val < m ∧ x = s.next + i.val := by
    intro i x
    split_ifs with h <;> simp [RawTree.Has, h]
  constructor
  · refine ⟨rfl, ⟨false, fun i => if i.val < m then .node (s.next + i.val) else n.ptr i⟩, by simp [subState], rfl, ?_⟩
    intro i
    dsimp only
    by_cases h : i.val < m
    · rw [if_pos h, if_pos h]
      refine ⟨rfl, RawNode.new, ?_, rfl⟩
      simp only [subState]
      rw [if_neg (by omega), if_pos (by omega)]
    · rw [if_neg h, if_neg h]
      exact hp i (by omega)
  · refine ⟨fun i => ⟨?_, ?_⟩, ?_⟩
    · dsimp only; split_ifs <;> trivial
    · dsimp only; rw [has]; omega
    · intro i j hij x hi hj
      rw [has] at hi hj
      exact hij (Fin.ext (by omega))
  · rintro x (h | ⟨i, h⟩)
    · exact Or.inl h
    · rw [has] at h
      right
      simp only [subState]
      omega
  · intro x hx
    have h1 : x ≠ a := fun e => hx (Or.inl e)
    have h2 : ¬ (s.next ≤ x ∧ x < s.next + m) := by
      intro h
      refine hx (Or.inr ⟨⟨x - s.next, by omega⟩, ?_⟩)
      rw [has]
      exact ⟨by simp only; omega, by simp only; omega⟩
    simp only [subState]
    rw [if_neg h1, if_neg h2]
    split_ifs with h3
    · rfl
    · exact hs x (by omega)
  · simp [subState]

/-- Replacing a child that was a leaf by what was built from it. -/
theorem built_child {s s1 s2 : RawState} {a c : Nat} {ch : Fin 8 → RawTree} {i : Fin 8} {t : RawTree} (ha : a < s.next)
    (h1 : RawBuilt s a (.inner a ch) s1) (hi : ch i = .leaf c) (h2 : RawBuilt s1 c t s2) : RawBuilt s a (.inner a (Function.update ch i t)) s2 := by
  obtain ⟨-, n, hn, hl, hr⟩ := h1.rep
  have hci : (ch i).Has c := by rw [hi]; rfl
  have hca : c ≠ a := fun e => (h1.sep.1 i).2 (e ▸ hci)
  have hcn : s.next ≤ c ∧ c < s1.next := by
    rcases h1.fresh c (Or.inr ⟨i, hci⟩) with e | e
    · exact absurd e hca
    · exact e
  have m1 := h1.mono
  have m2 := h2.mono
  have hta : ¬ t.Has a := by
    intro h
    rcases h2.fresh a h with e | e
    · exact hca e.symm
    · omega
  have htj : ∀ j, j ≠ i → ∀ x, (ch j).Has x → ¬ t.Has x := by
    intro j hj x hx ht
    rcases h2.fresh x ht with e | e
    · subst e; exact h1.sep.2 j i hj x hx hci
    · rcases h1.fresh x (Or.inr ⟨j, hx⟩) with e' | e' <;> omega
  have keep : ∀ x, x < s1.next → ¬ t.Has x → s2.mem x = s1.mem x := by
    intro x hx ht
    rw [h2.frame x ht, if_pos hx]
  constructor
  · refine ⟨rfl, n, by rw [keep a (by omega) hta]; exact hn, hl, ?_⟩
    intro j
    by_cases hj : j = i
    · subst hj
      rw [Function.update_self]
      have := hr j
      rw [hi] at this
      rw [this.1]
      exact h2.rep
    · rw [Function.update_of_ne hj]
      refine rep_congr (ch j) _ ?_ (hr j)
      intro x hx
      refine keep x ?_ (htj j hj x hx)
      rcases h1.fresh x (Or.inr ⟨j, hx⟩) with e | e <;> omega
  · refine ⟨?_, ?_⟩
    · intro j
      by_cases hj : j = i
      · subst hj; rw [Function.update_self]; exact ⟨h2.sep, hta⟩
      · rw [Function.update_of_ne hj]; exact h1.sep.1 j
    · intro j k hjk x hx hx'
      by_cases hj : j = i
      · subst hj
        rw [Function.update_self] at hx
        rw [Function.update_of_ne (Ne.symm hjk)] at hx'
        exact htj k (Ne.symm hjk) x hx' hx
      · rw [Function.update_of_ne hj] at hx
        by_cases hk : k = i
        · subst hk
          rw [Function.update_self] at hx'
          exact htj j hj x hx hx'
        · rw [Function.update_of_ne hk] at hx'
          exact h1.sep.2 j k hjk x hx hx'
  · rintro x (h | ⟨j, h⟩)
    · exact Or.inl h
    · by_cases hj : j = i
      · subst hj
        rw [Function.update_self] at h
        right
        rcases h2.fresh x h with e | e <;> omega
      · rw [Function.update_of_ne hj] at h
        rcases h1.fresh x (Or.inr ⟨j, h⟩) with e | e
        · exact Or.inl e
        · right; omega
  · intro x hx
    have hxa : x ≠ a := fun e => hx (Or.inl e)
    have hxt : ¬ t.Has x := fun h => hx (Or.inr ⟨i, by rw [Function.update_self]; exact h⟩)
    have hxc : x ≠ c := fun e => hxt (e ▸ rep_has h2.rep)
    rw [h2.frame x hxt]
    have hxo : ¬ (RawTree.inner a ch).Has x := by
      rintro (h | ⟨j, h⟩)
      · exact hxa h
      · by_cases hj : j = i
        · subst hj; rw [hi] at h; exact hxc h
        · exact hx (Or.inr ⟨j, by rw [Function.update_of_ne hj]; exact h⟩)
    rw [h1.frame x hxo]
    split_ifs <;> first | rfl | omega
  · omega

theorem anyInner_spec {s : RawState} {n : RawNode} {ch : Fin 8 → RawTree} (hr : ∀ i, (ch i).Rep s.mem (n.ptr i)) (hf : ∀ i, (ch i).Full) :
    ∀ l : List (Fin 8), ∃ b, rawAnyInner s n l = some b
  | [] => ⟨false, rfl⟩
  | i :: l => by
    obtain ⟨b, hb⟩ := anyInner_spec hr hf l
    have h1 := hr i
    have h2 := hf i
    rw [rawAnyInner]
    cases hc : ch i with
    | null => rw [hc] at h2; exact absurd h2 id
    | leaf c =>
      rw [hc] at h1
      obtain ⟨e, m, hm, hl⟩ := h1
      simp only [e, hm, hl, if_true]
      exact ⟨b, hb⟩
    | inner c ch' =>
      rw [hc] at h1
      obtain ⟨e, m, hm, hl, -⟩ := h1
      simp only [e, hm, hl]
      exact ⟨true, by simp⟩

theorem writeLeaf_spec {s s1 : RawState} {a : Nat} (w : Fin 8 → Bool) (h : RawBuilt s a (.leaf a) s1) :
    ∃ s2, rawWriteLeaf w a s1 = .ok s2 ∧ RawBuilt s a (.leaf a) s2 ∧ s2.budget = s1.budget := by
  obtain ⟨-, n, hn, hl⟩ := h.rep
  refine ⟨s1.put a { n with ptr := fun i => if w i then .junk else n.ptr i }, by unfold rawWriteLeaf; rw [hn], ?_, rfl⟩
  constructor
  · exact ⟨rfl, { n with ptr := fun i => if w i then .junk else n.ptr i }, by simp [RawState.put], hl⟩
  · trivial
  · intro x hx; exact Or.inl hx
  · intro x hx
    have : x ≠ a := hx
    simp only [RawState.put, Function.update_of_ne this]
    exact h.frame x hx
  · exact h.mono

theorem rawBuildNode_spec (plan : RawPlan) : ∀ (k : Nat) (lo : IVec3) (a : Nat) (s : RawState) (n : RawNode), s.mem a = some n → n.isLeaf = true →
    (s.budget < 8 → ∀ i, n.ptr i = .null) → a < s.next → (∀ x, s.next ≤ x → s.mem x = none) →
    (∃ s' t, rawBuildNode plan k lo a s = .ok s' ∧ RawBuilt s a t s' ∧ t.Full ∧ s.budget = s'.budget + rawAllocs k) ∨
    (∃ s' ch, rawBuildNode plan k lo a s = .thrown s' ∧ RawBuilt s a (.inner a ch) s' ∧ s.budget < rawAllocs k)
  | 0, lo, a, s, n, h, hl, _, ha, hs => by
    left
    have hb : RawBuilt s a (.leaf a) s := by
      refine ⟨⟨rfl, n, h, hl⟩, trivial, fun x hx => Or.inl hx, ?_, le_rfl⟩
      intro x _
      split_ifs with hx
      · rfl
      · exact hs x (by omega)
    obtain ⟨s2, h1, h2, h3⟩ := writeLeaf_spec (plan.words lo 0) hb
    exact ⟨s2, .leaf a, h1, h2, trivial, by rw [h3]; rfl⟩
  | k + 1, lo, a, s, n, h, hl, hp, ha, hs => by
    have IH := rawBuildNode_spec plan k
    rw [rawBuildNode, rawSubdivide_spec h hl ha]
    by_cases hb : 8 ≤ s.budget
    swap
    · right
      rw [if_neg hb]
      refine ⟨_, _, rfl, subState_built ha hs (by omega) (fun i _ => hp (by omega) i), ?_⟩
      rw [rawAllocs]; omega
    rw [if_pos hb]
    have hB0 : RawBuilt s a (subTree s a 8) (subState s a n 8) := subState_built ha hs le_rfl (fun i hi => absurd i.isLt (by omega))
    -- loop over the children
    have loop : ∀ (l : List (Fin 8)) (s1 : RawState) (ch : Fin 8 → RawTree), l.Nodup → RawBuilt s a (.inner a ch) s1 →
        (∀ i ∈ l, ∃ c, ch i = .leaf c ∧ s1.mem c = some RawNode.new) → (∀ i, i ∉ l → (ch i).Full) →
        (∃ s2 ch', rawFor (fun i s => rawChild (rawBuildNode plan k (childCorner lo k i)) a i s) l s1 = .ok s2 ∧ RawBuilt s a (.inner a ch') s2 ∧ (∀ i, (ch' i).Full) ∧ s1.budget = s2.budget + l.length * rawAllocs k) ∨
        (∃ s2 ch', rawFor (fun i s => rawChild (rawBuildNode plan k (childCorner lo k i)) a i s) l s1 = .thrown s2 ∧ RawBuilt s a (.inner a ch') s2 ∧ s1.budget < l.length * rawAllocs k) := by
      intro l
      induction l with
      | nil =>
        intro s1 ch _ hB _ hf
        left
        exact ⟨s1, ch, rfl, hB, fun i => hf i (by simp), by simp⟩
      | cons i l ihl =>
        intro s1 ch hnd hB hlf hf
        rw [List.nodup_cons] at hnd
        obtain ⟨c, hc, hcm⟩ := hlf i (by simp)
        obtain ⟨-, n1, hn1, hl1, hr1⟩ := hB.rep
        have hri := hr1 i
        rw [hc] at hri
        have hci : (ch i).Has c := by rw [hc]; rfl
        have hca : c ≠ a := fun e => (hB.sep.1 i).2 (e ▸ hci)
        have hcn : c < s1.next := by
          rcases hB.fresh c (Or.inr ⟨i, hci⟩) with e | e
          · exact absurd e hca
          · exact e.2
        have st := IH (childCorner lo k i) c s1 RawNode.new hcm rfl (fun _ _ => rfl) hcn (fun x hx => hB.unused ha hx)
        simp only [rawFor, rawChild, hn1, hri.1]
        rcases st with ⟨s2, t, e, hBt, hft, hbud⟩ | ⟨s2, ch2, e, hBt, hbud⟩
        · rw [e, RawRes.andThen]
          have hB2 := built_child ha hB hc hBt
          have := ihl s2 (Function.update ch i t) hnd.2 hB2 ?_ ?_
          · rcases this with ⟨s3, ch', e', h1, h2, h3⟩ | ⟨s3, ch', e', h1, h2⟩
            · left
              exact ⟨s3, ch', e', h1, h2, by rw [List.length_cons]; linarith⟩
            · right
              exact ⟨s3, ch', e', h1, by rw [List.length_cons]; linarith⟩
          · intro j hj
            have hji : j ≠ i := fun e => hnd.1 (e ▸ hj)
            obtain ⟨cj, h1, h2⟩ := hlf j (by simp [hj])
            refine ⟨cj, by rw [Function.update_of_ne hji]; exact h1, ?_⟩
            have hcj : (ch j).Has cj := by rw [h1]; rfl
            have hlt : cj < s1.next := by
              rcases hB.fresh cj (Or.inr ⟨j, hcj⟩) with e | e
              · exact absurd (e ▸ hcj) (hB.sep.1 j).2
              · exact e.2
            have hnt : ¬ t.Has cj := by
              intro ht
              rcases hBt.fresh cj ht with e | e
              · exact hB.sep.2 j i hji cj hcj (e ▸ hci)
              · omega
            rw [hBt.frame cj hnt, if_pos hlt]; exact h2
          · intro j hj
            by_cases hji : j = i
            · subst hji; rw [Function.update_self]; exact hft
            · rw [Function.update_of_ne hji]; exact hf j (by simp [hji, hj])
        · right
          rw [e, RawRes.andThen]
          exact ⟨s2, _, rfl, built_child ha hB hc hBt, by rw [List.length_cons]; nlinarith⟩
    have hl8 := loop (List.finRange 8) (subState s a n 8) _ (List.nodup_finRange 8) hB0 ?_ (fun i hi => absurd (List.mem_finRange i) hi)
    · rw [List.length_finRange] at hl8
      have hsb : (subState s a n 8).budget = s.budget - 8 := rfl
      rw [hsb] at hl8
      rcases hl8 with ⟨s2, ch, e, hB, hf, hbud⟩ | ⟨s2, ch, e, hB, hbud⟩
      · left
        rw [andThen_ok, e, andThen_ok]
        obtain ⟨-, n2, hn2, hl2, hr2⟩ := hB.rep
        obtain ⟨b, hb'⟩ := anyInner_spec (n := n2) hr2 hf (List.finRange 8)
        unfold rawFinish
        simp only [hn2, hb']
        have hall : s.budget = s2.budget + rawAllocs (k + 1) := by rw [rawAllocs]; omega
        cases b with
        | true => exact ⟨s2, _, rfl, hB, hf, hall⟩
        | false =>
          by_cases hd : plan.decide lo (k + 1)
          · simp only [hd, if_true]
            rw [rawCollapse_spec hB.rep hB.sep]
            have hB' : RawBuilt s a (.leaf a) ((s2.clear fun x => ∃ i, (ch i).Has x).put a RawNode.new) := by
              refine ⟨⟨rfl, RawNode.new, by simp [RawState.put], rfl⟩, trivial, fun x hx => Or.inl hx, ?_, hB.mono⟩
              intro x hx
              have hxa : x ≠ a := hx
              simp only [RawState.put, RawState.clear, Function.update_of_ne hxa]
              by_cases hc : ∃ i, (ch i).Has x
              · rw [if_pos hc]
                rcases hB.fresh x (Or.inr hc) with e' | e'
                · exact absurd e' hxa
                · rw [if_neg (by omega)]
              · rw [if_neg hc]
                exact hB.frame x (by rintro (e' | e'); exacts [hxa e', hc e'])
            obtain ⟨s3, h1, h2, h3⟩ := writeLeaf_spec (plan.words lo (k + 1)) hB'
            exact ⟨s3, .leaf a, h1, h2, trivial, by rw [h3]; exact hall⟩
          · have hd' : plan.decide lo (k + 1) = false := by simpa using hd
            simp only [hd', Bool.false_eq_true, if_false]
            exact ⟨s2, _, rfl, hB, hf, hall⟩
      · right
        rw [andThen_ok, e]
        exact ⟨s2, ch, rfl, hB, by rw [rawAllocs]; omega⟩
    · intro i _
      refine ⟨s.next + i.val, by simp [i.isLt], ?_⟩
      have := i.isLt
      simp only [subState]
      rw [if_neg (by omega), if_pos (by omega)]

/-! ### C66 -/

/-- The root is at address `r` and heads the tree `t`; no address from `next` on is in use. -/
structure RawState.Octree (s : RawState) (r : Nat) (t : RawTree) : Prop where
  rep : t.Rep s.mem (.node r)
  sep : t.Sep
  root : r < s.next
  unused : ∀ x, s.next ≤ x → s.mem x = none

/-- The root is a leaf whose storage holds leaf data at a word that an interrupted `subdivide` would not overwrite. -/
def RawState.Stale (s : RawState) (r : Nat) : Prop :=
  ∃ n, s.mem r = some n ∧ n.isLeaf = true ∧ ∃ i : Fin 8, s.budget ≤ i.val ∧ n.ptr i ≠ .null

theorem octree_cell {s : RawState} {r : Nat} {t : RawTree} (h : s.Octree r t) : ∃ n, s.mem r = some n := by
  have := h.rep
  cases t with
  | null => exact absurd this (by simp [RawTree.Rep])
  | leaf a => obtain ⟨e, n, hn, -⟩ := this; cases e; exact ⟨n, hn⟩
  | inner a ch => obtain ⟨e, n, hn, -⟩ := this; cases e; exact ⟨n, hn⟩

/-- What `if (m_root.isSubdivided ()) m_root.collapse ()` does. -/
theorem rawClear_spec {s : RawState} {r : Nat} {t : RawTree} (h : s.Octree r t) :
    ∃ s' n, rawClear r s = some s' ∧ s'.mem r = some n ∧ n.isLeaf = true ∧ s'.next = s.next ∧ s'.budget = s.budget ∧
      (∀ x, x ≠ r → s'.mem x = if t.Has x then none else s.mem x) ∧ ((∃ ch, t = .inner r ch) ∧ n = RawNode.new ∨ s.mem r = some n) := by
  have hr := h.rep
  unfold rawClear
  cases t with
  | null => exact absurd hr (by simp [RawTree.Rep])
  | leaf a =>
    obtain ⟨e, n, hn, hl⟩ := hr
    cases e
    simp only [hn, hl, if_true]
    refine ⟨s, n, rfl, hn, hl, rfl, rfl, ?_, Or.inr rfl⟩
    intro x hx
    have : ¬ (RawTree.leaf r).Has x := hx
    rw [if_neg this]
  | inner a ch =>
    obtain ⟨e, n, hn, hl, -⟩ := hr
    cases e
    simp only [hn, hl, Bool.false_eq_true, if_false]
    rw [rawCollapse_spec h.rep h.sep]
    refine ⟨_, RawNode.new, rfl, by simp [RawState.put], rfl, rfl, rfl, ?_, Or.inl ⟨⟨ch, rfl⟩, rfl⟩⟩
    intro x hx
    simp only [RawState.put, RawState.clear, Function.update_of_ne hx, RawTree.Has, hx, false_or]
    by_cases hc : ∃ i, (ch i).Has x <;> simp [hc]

/-- C66: wherever an allocation fails, `build` is safe unless the root is a leaf with leaf data in it: it never deletes an invalid
pointer; if enough allocations succeed, the root then heads a tree of subdivided nodes with eight children each, which shares no
node and owns everything that was created and not freed, and the whole previous tree has been freed; otherwise the exception
leaves the root as a new node, and every other node, old or new, has been freed.  Nothing else is touched. -/
theorem C66_build (plan : RawPlan) (level : Nat) (lo : IVec3) (r : Nat) (s : RawState) (t : RawTree) (h : s.Octree r t)
    (hst : s.budget < 8 → ¬ s.Stale r) :
    (rawAllocs level ≤ s.budget → ∃ s' t', rawBuild plan level lo r s = .ok s' ∧ s'.Octree r t' ∧ t'.Full ∧
      ∀ x, ¬ t'.Has x → s'.mem x = if t.Has x then none else s.mem x) ∧
    (s.budget < rawAllocs level → ∃ s', rawBuild plan level lo r s = .thrown s' ∧ s'.Octree r (.leaf r) ∧ s'.mem r = some RawNode.new ∧
      ∀ x, x ≠ r → s'.mem x = if t.Has x then none else s.mem x) := by
  obtain ⟨s1, n, e1, h1, h2, h3, h4, h5, h6⟩ := rawClear_spec h
  have hun : ∀ x, s1.next ≤ x → s1.mem x = none := by
    intro x hx
    have hr := h.root
    rw [h5 x (by omega)]
    split_ifs
    · rfl
    · exact h.unused x (by omega)
  have hcl : s1.budget < 8 → ∀ i, n.ptr i = .null ∨ i.val < s1.budget := by
    intro hb i
    rcases h6 with ⟨-, rfl⟩ | h6
    · exact Or.inl rfl
    · by_contra hc
      rw [not_or] at hc
      exact hst (by omega) ⟨n, h6, h2, i, by omega, hc.1⟩
  have key : (∃ s' t, rawBuildNode plan level lo r s1 = .ok s' ∧ RawBuilt s1 r t s' ∧ t.Full ∧ s1.budget = s'.budget + rawAllocs level) ∨
    (∃ s' ch, rawBuildNode plan level lo r s1 = .thrown s' ∧ RawBuilt s1 r (.inner r ch) s' ∧ s1.budget < rawAllocs level) := by
    by_cases hb : s1.budget < 8
    · cases level with
      | zero =>
        have hB : RawBuilt s1 r (.leaf r) s1 := by
          refine ⟨⟨rfl, n, h1, h2⟩, trivial, fun x hx => Or.inl hx, ?_, le_rfl⟩
          intro x _
          split_ifs with hx
          · rfl
          · exact hun x (by omega)
        obtain ⟨s2, k1, k2, k3⟩ := writeLeaf_spec (plan.words lo 0) hB
        exact Or.inl ⟨s2, .leaf r, k1, k2, trivial, by rw [k3]; rfl⟩
      | succ k =>
        right
        rw [rawBuildNode, rawSubdivide_spec h1 h2 (by rw [h3]; exact h.root), if_neg (by omega)]
        refine ⟨_, _, rfl, subState_built (by rw [h3]; exact h.root) hun (by omega) ?_, by rw [rawAllocs]; omega⟩
        intro i hi
        rcases hcl hb i with e | e
        · exact e
        · omega
    · exact rawBuildNode_spec plan level lo r s1 n h1 h2 (fun e => absurd e hb) (by rw [h3]; exact h.root) hun
  unfold rawBuild
  simp only [e1]
  rcases key with ⟨s2, t', e2, hB, hf, hb⟩ | ⟨s2, ch, e2, hB, hb⟩
  · refine ⟨fun _ => ?_, fun hlt => by omega⟩
    simp only [e2]
    refine ⟨s2, t', rfl, ⟨hB.rep, hB.sep, ?_, fun x hx => hB.unused (by rw [h3]; exact h.root) hx⟩, hf, ?_⟩
    · have := hB.mono; have := h.root; omega
    · intro x hx
      have hxr : x ≠ r := fun e => hx (e ▸ rep_has hB.rep)
      rw [hB.frame x hx]
      split_ifs with hn ht
      · rw [h5 x hxr, if_pos ht]
      · rw [h5 x hxr, if_neg ‹_›]
      · rfl
      · exact (h.unused x (by omega)).symm
  · refine ⟨fun hle => by omega, fun _ => ?_⟩
    simp only [e2]
    have hr3 : r < s2.next := by have := hB.mono; have := h.root; omega
    have hO : s2.Octree r (.inner r ch) := ⟨hB.rep, hB.sep, hr3, fun x hx => hB.unused (by rw [h3]; exact h.root) hx⟩
    obtain ⟨s3, n3, k1, k2, k3, k4, k5, k6, k7⟩ := rawClear_spec hO
    simp only [k1]
    have hnew : n3 = RawNode.new := by
      rcases k7 with ⟨-, e⟩ | e
      · exact e
      · obtain ⟨-, n4, hn4, hl4, -⟩ := hB.rep
        rw [hn4] at e
        cases e
        rw [hl4] at k3
        exact absurd k3 (by simp)
    have hfin : ∀ x, x ≠ r → s3.mem x = if t.Has x then none else s.mem x := by
      intro x hx
      rw [k6 x hx]
      by_cases hh : (RawTree.inner r ch).Has x
      · rw [if_pos hh]
        rcases hB.fresh x hh with e | e
        · exact absurd e hx
        · rw [h.unused x (by omega)]; simp
      · rw [if_neg hh, hB.frame x hh]
        by_cases hn : x < s1.next
        · rw [if_pos hn, h5 x hx]
        · rw [if_neg hn, h.unused x (by omega)]; simp
    refine ⟨s3, rfl, ⟨⟨rfl, n3, k2, k3⟩, trivial, by omega, ?_⟩, hnew ▸ k2, hfin⟩
    intro x hx
    have hmono := hB.mono
    rw [hfin x (by omega)]
    split_ifs
    · rfl
    · exact h.unused x (by omega)

/-- C66: destroying the octree frees every node of it exactly once and nothing else. -/
theorem C66_destroy (r : Nat) (s : RawState) (t : RawTree) (h : s.Octree r t) :
    ∃ s', rawDelete (.node r) s = some s' ∧ ∀ x, s'.mem x = if t.Has x then none else s.mem x :=
  ⟨_, rawDelete_spec t s _ h.rep h.sep, fun _ => rfl⟩

/-! ### The unsafe case -/

theorem collapse_junk {a : Nat} {i : Fin 8} : ∀ (l : List (Fin 8)) (s : RawState) (n : RawNode), i ∈ l → s.mem a = some n → n.ptr i = .junk →
    (∀ j, n.ptr j = .null ∨ n.ptr j = .junk ∨ ∃ c, c ≠ a ∧ n.ptr j = .node c ∧ (s.mem c = none ∨ s.mem c = some RawNode.new)) →
    l.foldlM (fun s i => (do
        let n ← s.mem a
        let s ← rawDelete (n.ptr i) s
        let n ← s.mem a
        some (s.put a { n with ptr := Function.update n.ptr i .null }) : Option RawState)) s = none
  | [], _, _, h, _, _, _ => absurd h (by simp)
  | k :: l, s, n, hi, hn, hj, ho => by
    rw [List.foldlM_cons]
    simp only [hn, Option.bind_eq_bind, Option.bind_some]
    by_cases hki : k = i
    · subst hki
      rw [hj, rawDelete]; rfl
    have hil : i ∈ l := by simpa [Ne.symm hki] using hi
    rcases ho k with e | e | ⟨c, hc, e, hm⟩
    · rw [e, rawDelete]
      simp only [hn, Option.bind_some]
      have := collapse_junk (a := a) (i := i) l (s.put a { n with ptr := Function.update n.ptr k .null }) { n with ptr := Function.update n.ptr k .null } hil
        (by simp [RawState.put]) (by simp only [Function.update_of_ne (Ne.symm hki)]; exact hj) ?_
      · simpa only [Option.bind_eq_bind] using this
      · intro j
        by_cases hjk : j = k
        · subst hjk; left; simp
        · simp only [Function.update_of_ne hjk]
          rcases ho j with e | e | ⟨c, hc, e, hm⟩
          · exact Or.inl e
          · exact Or.inr (Or.inl e)
          · exact Or.inr (Or.inr ⟨c, hc, e, by simpa [RawState.put, Function.update_of_ne hc] using hm⟩)
    · rw [e, rawDelete]; rfl
    · rw [e, rawDelete]
      rcases hm with hm | hm
      · simp only [hm]; rfl
      · have hfa : (s.free c).mem a = some n := by simp [RawState.free, Function.update_of_ne (Ne.symm hc), hn]
        simp only [hm, RawNode.new, if_true, Option.bind_some, hfa]
        have := collapse_junk (a := a) (i := i) l ((s.free c).put a { n with ptr := Function.update n.ptr k .null }) { n with ptr := Function.update n.ptr k .null } hil
          (by simp [RawState.put]) (by simp only [Function.update_of_ne (Ne.symm hki)]; exact hj) ?_
        · simpa only [Option.bind_eq_bind] using this
        · intro j
          by_cases hjk : j = k
          · subst hjk; left; simp
          · simp only [Function.update_of_ne hjk]
            rcases ho j with e | e | ⟨d, hd, e, hm⟩
            · exact Or.inl e
            · exact Or.inr (Or.inl e)
            · refine Or.inr (Or.inr ⟨d, hd, e, ?_⟩)
              by_cases hdc : d = c
              · left; simp [RawState.put, RawState.free, Function.update_of_ne hd, hdc]
                rw [Function.update_of_ne (hdc ▸ hd)]; simp
              · simpa [RawState.put, RawState.free, Function.update_of_ne hd, Function.update_of_ne hdc] using hm

/-- C66, refuted in general: if the root is a leaf with leaf data and an allocation fails before the word that holds the data is
overwritten, `build` deletes an invalid pointer. -/
theorem C66_stale (plan : RawPlan) (level : Nat) (lo : IVec3) (r : Nat) (s : RawState) (n : RawNode) (hn : s.mem r = some n) (hl : n.isLeaf = true)
    (hr : r < s.next) (hw : ∀ j, n.ptr j = .null ∨ n.ptr j = .junk) (i : Fin 8) (hi : n.ptr i = .junk) (hb : s.budget ≤ i.val) :
    rawBuild plan (level + 1) lo r s = .ub := by
  have hlt := i.isLt
  unfold rawBuild rawClear
  simp only [hn, hl, if_true]
  rw [rawBuildNode, rawSubdivide_spec hn hl hr, if_neg (by omega)]
  simp only [RawRes.andThen]
  have hm : (subState s r n s.budget).mem r = some ⟨false, fun i => if i.val < s.budget then .node (s.next + i.val) else n.ptr i⟩ := by simp [subState]
  simp only [hm, Bool.false_eq_true, if_false]
  rw [rawCollapse]
  simp only [hm]
  have := collapse_junk (a := r) (i := i) (List.finRange 8)
    ((subState s r n s.budget).put r ⟨true, fun i => if i.val < s.budget then .node (s.next + i.val) else n.ptr i⟩)
    ⟨true, fun i => if i.val < s.budget then .node (s.next + i.val) else n.ptr i⟩ (List.mem_finRange i) (by simp [RawState.put])
    (by dsimp only; rw [if_neg (by omega)]; exact hi) ?_
  · rw [this]
  · intro j
    dsimp only
    by_cases hj : j.val < s.budget
    · rw [if_pos hj]
      refine Or.inr (Or.inr ⟨s.next + j.val, by omega, rfl, Or.inr ?_⟩)
      have h1 : s.next + j.val ≠ r := by omega
      simp only [RawState.put, Function.update_of_ne h1, subState]
      rw [if_neg h1, if_pos (by omega)]
    · rw [if_neg hj]
      rcases hw j with e | e
      · exact Or.inl e
      · exact Or.inr (Or.inl e)

/-! ### Examples -/

/-- A new octree: only the root, at address 0, with `b` allocations to come. -/
def newRaw (b : Nat) : RawState := ⟨fun x => if x = 0 then some RawNode.new else none, 1, b⟩

theorem newRaw_octree (b : Nat) : (newRaw b).Octree 0 (.leaf 0) :=
  ⟨⟨rfl, RawNode.new, rfl, rfl⟩, trivial, by simp [newRaw], fun x hx => by simp only [newRaw] at hx ⊢; rw [if_neg (by omega)]⟩

/-- A new octree of size 4 needs 72 allocations; with 30 the exception leaves just the root. -/
example (plan : RawPlan) : ∃ s', rawBuild plan 2 ⟨-2, -2, -2⟩ 0 (newRaw 30) = .thrown s' ∧ ∀ x, x ≠ 0 → s'.mem x = none := by
  obtain ⟨-, h⟩ := C66_build plan 2 ⟨-2, -2, -2⟩ 0 (newRaw 30) (.leaf 0) (newRaw_octree 30) (fun h => absurd h (by simp [newRaw]))
  obtain ⟨s', h1, -, -, h2⟩ := h (by simp [newRaw, rawAllocs])
  refine ⟨s', h1, fun x hx => ?_⟩
  rw [h2 x hx]
  simp [newRaw, hx]

/-- If every node can be collapsed, the root becomes a leaf with leaf data. -/
theorem build_all_collapsed (plan : RawPlan) (hd : ∀ lo k, plan.decide lo k = true) : ∀ (k : Nat) (lo : IVec3) (a : Nat) (s : RawState) (n : RawNode),
    s.mem a = some n → n.isLeaf = true → (∀ i, n.ptr i = .null) → a < s.next → (∀ x, s.next ≤ x → s.mem x = none) → rawAllocs k ≤ s.budget →
    ∃ s', rawBuildNode plan k lo a s = .ok s' ∧ RawBuilt s a (.leaf a) s' ∧ s.budget = s'.budget + rawAllocs k ∧
      s'.mem a = some ⟨true, fun i => if plan.words lo k i then .junk else .null⟩
  | 0, lo, a, s, n, h, hl, hp, ha, hs, _ => by
    have hb : RawBuilt s a (.leaf a) s := by
      refine ⟨⟨rfl, n, h, hl⟩, trivial, fun x hx => Or.inl hx, ?_, le_rfl⟩
      intro x _
      split_ifs with hx
      · rfl
      · exact hs x (by omega)
    obtain ⟨s2, h1, h2, h3⟩ := writeLeaf_spec (plan.words lo 0) hb
    refine ⟨s2, h1, h2, by rw [h3]; rfl, ?_⟩
    unfold rawWriteLeaf at h1
    rw [h] at h1
    cases h1
    simp [RawState.put, hl, hp]
  | k + 1, lo, a, s, n, h, hl, hp, ha, hs, hbud => by
    have IH := build_all_collapsed plan hd k
    have hbud' : 8 + 8 * rawAllocs k ≤ s.budget := hbud
    rw [rawBuildNode, rawSubdivide_spec h hl ha, if_pos (by omega), andThen_ok]
    have hB0 : RawBuilt s a (subTree s a 8) (subState s a n 8) := subState_built ha hs le_rfl (fun i hi => absurd i.isLt (by omega))
    have loop : ∀ (l : List (Fin 8)) (s1 : RawState) (ch : Fin 8 → RawTree), l.Nodup → RawBuilt s a (.inner a ch) s1 →
        (∀ i ∈ l, ∃ c, ch i = .leaf c ∧ s1.mem c = some RawNode.new) → (∀ i, ∃ c, ch i = .leaf c) → l.length * rawAllocs k ≤ s1.budget →
        ∃ s2, rawFor (fun i s => rawChild (rawBuildNode plan k (childCorner lo k i)) a i s) l s1 = .ok s2 ∧ RawBuilt s a (.inner a ch) s2 ∧
          s1.budget = s2.budget + l.length * rawAllocs k := by
      intro l
      induction l with
      | nil => intro s1 ch _ hB _ _ _; exact ⟨s1, rfl, hB, by simp⟩
      | cons i l ihl =>
        intro s1 ch hnd hB hlf hf hbb
        rw [List.nodup_cons] at hnd
        rw [List.length_cons] at hbb
        obtain ⟨c, hc, hcm⟩ := hlf i (by simp)
        obtain ⟨-, n1, hn1, hl1, hr1⟩ := hB.rep
        have hri := hr1 i
        rw [hc] at hri
        have hci : (ch i).Has c := by rw [hc]; rfl
        have hca : c ≠ a := fun e => (hB.sep.1 i).2 (e ▸ hci)
        have hcn : c < s1.next := by
          rcases hB.fresh c (Or.inr ⟨i, hci⟩) with e | e
          · exact absurd e hca
          · exact e.2
        obtain ⟨s2, e, hBt, hb2, -⟩ := IH (childCorner lo k i) c s1 RawNode.new hcm rfl (fun _ => rfl) hcn (fun x hx => hB.unused ha hx) (by nlinarith)
        simp only [rawFor, rawChild, hn1, hri.1]
        rw [e, andThen_ok]
        have hB2 := built_child ha hB hc hBt
        rw [show Function.update ch i (.leaf c) = ch by rw [← hc]; exact Function.update_eq_self i ch] at hB2
        have hlf' : ∀ j ∈ l, ∃ c, ch j = .leaf c ∧ s2.mem c = some RawNode.new := by
          intro j hj
          have hji : j ≠ i := fun e => hnd.1 (e ▸ hj)
          obtain ⟨cj, h1, h2⟩ := hlf j (by simp [hj])
          refine ⟨cj, h1, ?_⟩
          have hcj : (ch j).Has cj := by rw [h1]; rfl
          have hlt : cj < s1.next := by
            rcases hB.fresh cj (Or.inr ⟨j, hcj⟩) with e | e
            · exact absurd (e ▸ hcj) (hB.sep.1 j).2
            · exact e.2
          have hnt : ¬ (RawTree.leaf c).Has cj := by
            intro ht
            exact hB.sep.2 j i hji cj hcj ((show cj = c from ht) ▸ hci)
          rw [hBt.frame cj hnt, if_pos hlt]; exact h2
        obtain ⟨s3, e', h1, h2⟩ := ihl s2 ch hnd.2 hB2 hlf' hf (by nlinarith)
        exact ⟨s3, e', h1, by rw [List.length_cons]; linarith⟩
    obtain ⟨s2, e, hB, hb2⟩ := loop (List.finRange 8) (subState s a n 8) _ (List.nodup_finRange 8) hB0
      (fun i _ => by
        refine ⟨s.next + i.val, by simp [i.isLt], ?_⟩
        have := i.isLt
        simp only [subState]
        rw [if_neg (by omega), if_pos (by omega)])
      (fun i => ⟨s.next + i.val, by simp [i.isLt]⟩) (by rw [List.length_finRange]; simp only [subState]; omega)
    rw [e, andThen_ok]
    obtain ⟨-, n2, hn2, hl2, hr2⟩ := hB.rep
    have hany : ∀ l : List (Fin 8), rawAnyInner s2 n2 l = some false := by
      intro l
      induction l with
      | nil => rfl
      | cons i l ih =>
        have := hr2 i
        simp only [i.isLt, if_true] at this
        obtain ⟨e1, m, e2, e3⟩ := this
        simp only [rawAnyInner, e1, e2, e3, if_true, ih]
    unfold rawFinish
    simp only [hn2, hany, hd, if_true]
    rw [rawCollapse_spec hB.rep hB.sep]
    have hB' : RawBuilt s a (.leaf a) ((s2.clear fun x => ∃ i, (if (i : Fin 8).val < 8 then RawTree.leaf (s.next + i.val) else .null).Has x).put a RawNode.new) := by
      refine ⟨⟨rfl, RawNode.new, by simp [RawState.put], rfl⟩, trivial, fun x hx => Or.inl hx, ?_, hB.mono⟩
      intro x hx
      have hxa : x ≠ a := hx
      simp only [RawState.put, RawState.clear, Function.update_of_ne hxa]
      by_cases hc : ∃ i, (if (i : Fin 8).val < 8 then RawTree.leaf (s.next + i.val) else .null).Has x
      · rw [if_pos hc]
        rcases hB.fresh x (Or.inr hc) with e' | e'
        · exact absurd e' hxa
        · rw [if_neg (by omega)]
      · rw [if_neg hc]
        exact hB.frame x (by rintro (e' | e'); exacts [hxa e', hc e'])
    obtain ⟨s3, h1, h2, h3⟩ := writeLeaf_spec (plan.words lo (k + 1)) hB'
    refine ⟨s3, h1, h2, ?_, ?_⟩
    · rw [h3]
      have e1 : s.budget - 8 = s2.budget + (List.finRange 8).length * rawAllocs k := hb2
      rw [List.length_finRange] at e1
      rw [rawAllocs]
      simp only [RawState.put, RawState.clear]
      omega
    · unfold rawWriteLeaf at h1
      simp only [RawState.put, Function.update_self] at h1
      cases h1
      simp [RawNode.new]

/-- The hypotheses of `C66_stale` come up: if the grid allows the whole octree to collapse (for example because it is solid
everywhere), the root becomes a leaf; building again while no memory is left deletes an invalid pointer. -/
theorem C66_rebuild_unsafe (plan : RawPlan) (hd : ∀ lo k, plan.decide lo k = true) (level : Nat) (lo : IVec3) (hw : ∃ i, plan.words lo (level + 1) i = true)
    (b : Nat) (hb : rawAllocs (level + 1) ≤ b) :
    ∃ s', rawBuild plan (level + 1) lo 0 (newRaw b) = .ok s' ∧ rawBuild plan (level + 1) lo 0 { s' with budget := 0 } = .ub := by
  obtain ⟨s', h1, h2, -, h3⟩ := build_all_collapsed plan hd (level + 1) lo 0 (newRaw b) RawNode.new rfl rfl (fun _ => rfl) (by simp [newRaw])
    (newRaw_octree b).unused hb
  refine ⟨s', ?_, ?_⟩
  · unfold rawBuild rawClear
    have : (newRaw b).mem 0 = some RawNode.new := rfl
    simp only [this, RawNode.new, if_true, h1]
  · obtain ⟨i, hi⟩ := hw
    have hm := h2.mono
    refine C66_stale plan level lo 0 _ _ h3 rfl ?_ ?_ i (by simp [hi]) (by simp)
    · have : (newRaw b).next = 1 := rfl
      simp only; omega
    · intro j; dsimp only; split_ifs <;> simp

end Isomesh
