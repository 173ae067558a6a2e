import Verif.Spec.TriNodeMem
import Verif.Proofs.TriInsert

/-! Insertion into the triangle octree in memory, with failing allocations. -/

namespace Isomesh

noncomputable section
open scoped Classical

theorem TriPtrTree.tree_null {t : TriPtrTree} : t.tree = .null ↔ t = .null := by
  cases t <;> simp [TriPtrTree.tree]

theorem mrep_congr {mem mem' : Nat → Option TriRaw} : ∀ (t : TriPtrTree) (p : Option Nat), (∀ x, t.Has x → mem' x = mem x) → t.Rep mem p → t.Rep mem' p
  | .null, _, _, h => h
  | .leaf a _ _ _ _, _, hx, ⟨h1, h2⟩ => ⟨h1, by rw [hx a rfl]; exact h2⟩
  | .inner a _ _ _ ch, _, hx, ⟨h1, child, old, h2, h3⟩ =>
    ⟨h1, child, old, by rw [hx a (Or.inl rfl)]; exact h2, fun i => mrep_congr (ch i) _ (fun x hh => hx x (Or.inr ⟨i, hh⟩)) (h3 i)⟩

theorem mrep_alloc {mem : Nat → Option TriRaw} : ∀ (t : TriPtrTree) (p : Option Nat), t.Rep mem p → ∀ x, t.Has x → ∃ n, mem x = some n
  | .null, _, _, _, h => h.elim
  | .leaf a _ _ _ _, _, ⟨_, h2⟩, x, h => by obtain rfl : x = a := h; exact ⟨_, h2⟩
  | .inner a _ _ _ ch, _, ⟨_, child, old, h2, h3⟩, x, h => by
    rcases h with rfl | ⟨i, hi⟩
    · exact ⟨_, h2⟩
    · exact mrep_alloc (ch i) _ (h3 i) x hi

theorem TriMem.Owned.lt {s : TriMem} {p : Option Nat} {t : TriPtrTree} (h : s.Owned p t) {x : Nat} (hx : t.Has x) : x < s.next := by
  by_contra hc
  obtain ⟨n, hn⟩ := mrep_alloc t p h.rep x hx
  rw [h.unused x (by omega)] at hn
  simp at hn

/-- The pointer of a tree. -/
def TriPtrTree.ptr : TriPtrTree → Option Nat
  | .null => none
  | .leaf a _ _ _ _ => some a
  | .inner a _ _ _ _ => some a

theorem mrep_ptr {mem : Nat → Option TriRaw} {t : TriPtrTree} {p : Option Nat} (h : t.Rep mem p) : p = t.ptr := by
  cases t with
  | null => exact h
  | leaf a _ _ _ _ => exact h.1
  | inner a _ _ _ _ => exact h.1

theorem grown_refl (s : TriMem) (t : TriPtrTree) : Grown s s t t := ⟨le_rfl, fun x => ⟨Or.inl, fun h => h.resolve_right (by omega)⟩, fun _ _ _ => rfl⟩

theorem grown_trans {s s1 s2 : TriMem} {t t1 t2 : TriPtrTree} (h : Grown s s1 t t1) (h' : Grown s1 s2 t1 t2) : Grown s s2 t t2 := by
  refine ⟨h.next.trans h'.next, fun x => ?_, fun x hx hl => ?_⟩
  · rw [h'.has, h.has]
    have := h.next
    have := h'.next
    constructor
    · rintro ((hh | hh) | hh)
      · exact Or.inl hh
      · right; omega
      · right; omega
    · rintro (hh | hh)
      · exact Or.inl (Or.inl hh)
      · by_cases c : x < s1.next
        · left; right; omega
        · right; omega
  · rw [h'.keep x _ (lt_of_lt_of_le hl h.next), h.keep x hx hl]
    rw [h.has]
    rintro (hh | hh)
    · exact hx hh
    · omega

/-- One child of an owned node is owned. -/
theorem owned_child {s : TriMem} {a : Nat} {pos : Vec3 ℝ} {half : ℝ} {level : Nat} {ch : Fin 8 → TriPtrTree}
    (h : s.Owned (some a) (.inner a pos half level ch)) (i : Fin 8) : s.Owned (ch i).ptr (ch i) := by
  obtain ⟨-, child, old, -, h3⟩ := h.rep
  refine ⟨?_, (h.sep.1 i).1, h.unused⟩
  rw [← mrep_ptr (h3 i)]
  exact h3 i

/-- A change of one child that keeps its pointer. -/
theorem owned_update {s s' : TriMem} {a : Nat} {pos : Vec3 ℝ} {half : ℝ} {level : Nat} {ch : Fin 8 → TriPtrTree} {c : TriPtrTree} {i : Fin 8}
    (h : s.Owned (some a) (.inner a pos half level ch)) (h1 : s'.Owned (ch i).ptr c) (h2 : Grown s s' (ch i) c) :
    s'.Owned (some a) (.inner a pos half level (Function.update ch i c)) ∧
      Grown s s' (.inner a pos half level ch) (.inner a pos half level (Function.update ch i c)) := by
  obtain ⟨-, child, old, hm, hr⟩ := h.rep
  have ha : a < s.next := h.lt (Or.inl rfl)
  have hlt : ∀ j x, (ch j).Has x → x < s.next := fun j x hx => h.lt (Or.inr ⟨j, hx⟩)
  have hm' : s'.mem a = some ⟨pos, half, false, level, child, old⟩ := by rw [h2.keep a (h.sep.1 i).2 ha, hm]
  refine ⟨⟨⟨rfl, child, old, hm', fun j => ?_⟩, ⟨fun j => ?_, fun j k hjk x hx => ?_⟩, h1.unused⟩, h2.next, fun x => ?_, fun x hx hl => ?_⟩
  · by_cases hj : j = i
    · subst hj
      rw [Function.update_self, mrep_ptr (hr j)]
      exact h1.rep
    · rw [Function.update_of_ne hj]
      exact mrep_congr _ _ (fun x hx => h2.keep x (h.sep.2 j i hj x hx) (hlt j x hx)) (hr j)
  · by_cases hj : j = i
    · subst hj
      rw [Function.update_self]
      refine ⟨h1.sep, fun hx => ?_⟩
      rcases (h2.has a).mp hx with hx | hx
      · exact (h.sep.1 j).2 hx
      · omega
    · rw [Function.update_of_ne hj]
      exact h.sep.1 j
  · by_cases hj : j = i
    · subst hj
      rw [Function.update_self] at hx
      rw [Function.update_of_ne hjk.symm]
      rcases (h2.has x).mp hx with hx | hx
      · exact h.sep.2 j k hjk x hx
      · intro hk
        have := hlt k x hk
        omega
    · rw [Function.update_of_ne hj] at hx
      by_cases hk : k = i
      · subst hk
        rw [Function.update_self]
        intro hx'
        rcases (h2.has x).mp hx' with hx' | hx'
        · exact h.sep.2 j k hjk x hx hx'
        · have := hlt j x hx
          omega
      · rw [Function.update_of_ne hk]
        exact h.sep.2 j k hjk x hx
  · constructor
    · rintro (hx | ⟨j, hx⟩)
      · exact Or.inl (Or.inl hx)
      · by_cases hj : j = i
        · subst hj
          rw [Function.update_self] at hx
          rcases (h2.has x).mp hx with hx | hx
          · exact Or.inl (Or.inr ⟨j, hx⟩)
          · exact Or.inr hx
        · rw [Function.update_of_ne hj] at hx
          exact Or.inl (Or.inr ⟨j, hx⟩)
    · rintro ((hx | ⟨j, hx⟩) | hx)
      · exact Or.inl hx
      · right
        refine ⟨j, ?_⟩
        by_cases hj : j = i
        · subst hj
          rw [Function.update_self]
          exact (h2.has x).mpr (Or.inl hx)
        · rw [Function.update_of_ne hj]
          exact hx
      · right
        refine ⟨i, ?_⟩
        rw [Function.update_self]
        exact (h2.has x).mpr (Or.inr hx)
  · exact h2.keep x (fun hx' => hx (Or.inr ⟨i, hx'⟩)) hl

/-- A missing child is created. -/
theorem owned_create {s : TriMem} {a : Nat} {pos : Vec3 ℝ} {half : ℝ} {level : Nat} {ch : Fin 8 → TriPtrTree} {i : Fin 8} {n : TriRaw}
    (h : s.Owned (some a) (.inner a pos half level ch)) (hi : ch i = .null) (hn : s.mem a = some n) (sub : Vec3 ℝ) (hf : ℝ) (lv : Nat) :
    ((s.alloc (TriRaw.new hf lv sub)).put a { n with child := Function.update n.child i (some s.next) }).Owned (some a)
        (.inner a pos half level (Function.update ch i (.leaf s.next sub hf lv []))) ∧
      Grown s ((s.alloc (TriRaw.new hf lv sub)).put a { n with child := Function.update n.child i (some s.next) })
        (.inner a pos half level ch) (.inner a pos half level (Function.update ch i (.leaf s.next sub hf lv []))) := by
  obtain ⟨-, child, old, hm, hr⟩ := h.rep
  rw [hn] at hm
  cases hm
  have ha : a < s.next := h.lt (Or.inl rfl)
  have hlt : ∀ j x, (ch j).Has x → x < s.next := fun j x hx => h.lt (Or.inr ⟨j, hx⟩)
  have keep : ∀ x, x ≠ a → x ≠ s.next → ((s.alloc (TriRaw.new hf lv sub)).put a
      (⟨pos, half, false, level, Function.update child i (some s.next), old⟩)).mem x = s.mem x := by
    intro x h1 h2
    simp [TriMem.put, TriMem.alloc, h1, h2]
  refine ⟨⟨⟨rfl, Function.update child i (some s.next), old, by simp [TriMem.put], fun j => ?_⟩, ⟨fun j => ?_, fun j k hjk x hx => ?_⟩, fun x hx => ?_⟩,
    Nat.le_succ _, fun x => ?_, fun x hx hl => ?_⟩
  · by_cases hj : j = i
    · subst hj
      rw [Function.update_self, Function.update_self]
      refine ⟨rfl, ?_⟩
      simp [TriMem.put, TriMem.alloc, Function.update_of_ne (Nat.ne_of_gt ha), TriRaw.new]
    · rw [Function.update_of_ne hj, Function.update_of_ne hj]
      exact mrep_congr _ _ (fun x hx => keep x (fun e => (h.sep.1 j).2 (e ▸ hx)) (Nat.ne_of_lt (hlt j x hx))) (hr j)
  · by_cases hj : j = i
    · subst hj
      rw [Function.update_self]
      exact ⟨trivial, fun hx : a = s.next => by omega⟩
    · rw [Function.update_of_ne hj]
      exact h.sep.1 j
  · by_cases hj : j = i
    · subst hj
      rw [Function.update_self] at hx
      rw [Function.update_of_ne hjk.symm]
      intro hk
      have := hlt k x hk
      obtain rfl : x = s.next := hx
      omega
    · rw [Function.update_of_ne hj] at hx
      by_cases hk : k = i
      · subst hk
        rw [Function.update_self]
        intro hx'
        have := hlt j x hx
        obtain rfl : x = s.next := hx'
        omega
      · rw [Function.update_of_ne hk]
        exact h.sep.2 j k hjk x hx
  · have hx : s.next + 1 ≤ x := hx
    rw [keep x (by omega) (by omega)]
    exact h.unused x (by omega)
  · have e : ((s.alloc (TriRaw.new hf lv sub)).put a (⟨pos, half, false, level, Function.update child i (some s.next), old⟩)).next = s.next + 1 := rfl
    rw [e]
    constructor
    · rintro (hx | ⟨j, hx⟩)
      · exact Or.inl (Or.inl hx)
      · by_cases hj : j = i
        · subst hj
          rw [Function.update_self] at hx
          obtain rfl : x = s.next := hx
          right; omega
        · rw [Function.update_of_ne hj] at hx
          exact Or.inl (Or.inr ⟨j, hx⟩)
    · rintro ((hx | ⟨j, hx⟩) | hx)
      · exact Or.inl hx
      · right
        refine ⟨j, ?_⟩
        by_cases hj : j = i
        · subst hj
          rw [hi] at hx
          exact hx.elim
        · rw [Function.update_of_ne hj]
          exact hx
      · right
        refine ⟨i, ?_⟩
        rw [Function.update_self]
        show x = s.next
        omega
  · exact keep x (fun e => hx (Or.inl e)) (Nat.ne_of_lt hl)

/-- Outcome of an insertion with respect to allocations and contents. -/
structure InsRes (b : Bool) (s s' : TriMem) (need : Nat) (pos : Vec3 ℝ) (half : ℝ) (level : Nat) (t : TriTree) (x : Tri) (t' ok : TriTree) : Prop where
  enough : need ≤ s.budget → b = true ∧ s'.budget + need = s.budget
  short : s.budget < need → b = false
  good : b = true → t' = ok
  bad : b = false → t.Broken pos half level x t'

/-- `insert` does what it should on this tree in every memory. -/
def InsSpec (grows : Nat → Bool) (x : Tri) (t : TriPtrTree) : Prop :=
  ∀ a s pos half level, s.Owned (some a) t → t.tree.Boxed pos half level → ∃ b s' t', memInsert grows a x s = some (b, s') ∧ s'.Owned (some a) t' ∧
    Grown s s' t t' ∧ InsRes b s s' (t.tree.need grows x) pos half level t.tree x t'.tree (t.tree.ins x)

theorem broken_same {pos : Vec3 ℝ} {half : ℝ} {level : Nat} {t : TriTree} (x : Tri) (h : t.Boxed pos half level) : t.Broken pos half level x t :=
  ⟨h, fun _ => Or.inl, [], Or.inl rfl, fun _ => Or.inl⟩

/-- Leaves with room. -/
theorem insSpec_room (grows : Nat → Bool) (x : Tri) (c : Nat) (p : Vec3 ℝ) (hf : ℝ) (lv : Nat) (tris : List Tri) (hroom : tris.length < 60 ∨ 15 ≤ lv) :
    InsSpec grows x (.leaf c p hf lv tris) := by
  intro a s pos half level h hb
  obtain ⟨h1, h2⟩ := h.rep
  obtain rfl : a = c := by injection h1
  have hlt : a < s.next := h.lt rfl
  have e : memInsert grows a x s = memPush grows a x s := by
    rw [memInsert]
    simp only [h2, if_true]
    exact if_pos hroom
  have eput : ∀ b, ({ s.put a ⟨p, hf, true, lv, fun _ => none, tris ++ [x]⟩ with budget := b } : TriMem).Owned (some a) (.leaf a p hf lv (tris ++ [x])) ∧
      Grown s { s.put a ⟨p, hf, true, lv, fun _ => none, tris ++ [x]⟩ with budget := b } (.leaf a p hf lv tris) (.leaf a p hf lv (tris ++ [x])) := by
    intro b
    refine ⟨⟨⟨rfl, by simp [TriMem.put]⟩, trivial, fun y hy => ?_⟩, le_rfl, fun y => ?_, fun y hy _ => ?_⟩
    · have hy : s.next ≤ y := hy
      simp only [TriMem.put]
      rw [Function.update_of_ne (by omega)]
      exact h.unused y hy
    · simp only [TriPtrTree.Has, TriMem.put]
      omega
    · simp only [TriMem.put]
      exact Function.update_of_ne hy _ _
  have hneed : (TriPtrTree.leaf a p hf lv tris).tree.need grows x = pushNeed grows tris.length := by
    simp only [TriPtrTree.tree, TriTree.need]
    exact if_pos hroom
  have hins : (TriPtrTree.leaf a p hf lv tris).tree.ins x = .leaf p hf lv (tris ++ [x]) := by
    simp only [TriPtrTree.tree, TriTree.ins]
    exact if_pos hroom
  rw [e, hneed, hins]
  unfold memPush pushNeed
  simp only [h2]
  by_cases hg : grows tris.length = true
  · rw [if_pos hg, if_pos hg]
    by_cases h0 : s.budget = 0
    · rw [if_pos h0]
      exact ⟨false, s, _, rfl, h, grown_refl _ _, fun hh => by omega, fun _ => rfl, fun hh => by simp at hh, fun _ => broken_same _ hb⟩
    · rw [if_neg h0]
      obtain ⟨o1, o2⟩ := eput (s.budget - 1)
      exact ⟨true, _, _, rfl, o1, o2, fun _ => ⟨rfl, by show s.budget - 1 + 1 = s.budget; omega⟩, fun hh => by omega, fun _ => rfl, fun hh => by simp at hh⟩
  · rw [if_neg hg, if_neg hg]
    obtain ⟨o1, o2⟩ := eput s.budget
    exact ⟨true, _, _, rfl, o1, o2, fun _ => ⟨rfl, rfl⟩, fun hh => by omega, fun _ => rfl, fun hh => by simp at hh⟩

/-- What an octant becomes. -/
def slotIns (pos : Vec3 ℝ) (half : ℝ) (level : Nat) (x : Tri) (i : Fin 8) (t : TriTree) : TriTree :=
  if t = .null then .leaf (triSubpos pos half i) (half / 2) (level + 1) [x] else t.ins x

theorem byIndex_spec {grows : Nat → Bool} {x : Tri} {s : TriMem} {a : Nat} {pos : Vec3 ℝ} {half : ℝ} {level : Nat} {ch : Fin 8 → TriPtrTree} {i : Fin 8}
    (h : s.Owned (some a) (.inner a pos half level ch)) (hl : level < 15) (hb : (ch i).tree.Boxed (triSubpos pos half i) (half / 2) (level + 1))
    (hi : ch i ≠ .null → InsSpec grows x (ch i)) :
    ∃ b s' c, memByIndex grows a i x s = some (b, s') ∧ s'.Owned (some a) (.inner a pos half level (Function.update ch i c)) ∧
      Grown s s' (.inner a pos half level ch) (.inner a pos half level (Function.update ch i c)) ∧
      InsRes b s s' ((ch i).tree.need grows x) (triSubpos pos half i) (half / 2) (level + 1) (ch i).tree x c.tree (slotIns pos half level x i (ch i).tree) := by
  obtain ⟨-, child, old, hm, hr⟩ := h.rep
  have hp := mrep_ptr (hr i)
  rw [memByIndex]
  simp only [hm]
  by_cases hnull : ch i = .null
  · rw [hnull] at hp
    simp only [hp, TriPtrTree.ptr]
    have hneed : (ch i).tree.need grows x = 1 + pushNeed grows 0 := by rw [hnull]; rfl
    by_cases h0 : s.budget = 0
    · rw [if_pos h0]
      refine ⟨false, s, .null, rfl, ?_, ?_, ⟨fun hh => by omega, fun _ => rfl, fun hh => by simp at hh, fun _ => ?_⟩⟩
      · rw [← hnull, Function.update_eq_self]; exact h
      · rw [← hnull, Function.update_eq_self]; exact grown_refl _ _
      · have : (TriPtrTree.null).tree = (ch i).tree := by rw [hnull]
        rw [this]
        exact broken_same _ hb
    · rw [if_neg h0]
      obtain ⟨o1, o2⟩ := owned_create h hnull hm (triSubpos pos half i) (half / 2) (level + 1)
      generalize hs1 : (s.alloc (TriRaw.new (half / 2) (level + 1) (triSubpos pos half i))).put a
        { pos := pos, half := half, isLeaf := false, level := level, child := Function.update child i (some s.next), tris := old } = s1 at o1 o2 ⊢
      have hb1 : s1.budget = s.budget - 1 := by rw [← hs1]; rfl
      have hbx : (TriPtrTree.leaf s.next (triSubpos pos half i) (half / 2) (level + 1) []).tree.Boxed (triSubpos pos half i) (half / 2) (level + 1) :=
        ⟨rfl, rfl, rfl, by omega, Or.inl (by simp)⟩
      have oc := owned_child o1 i
      rw [Function.update_self] at oc
      obtain ⟨b, s', c, e1, e2, e3, e4⟩ := insSpec_room grows x s.next (triSubpos pos half i) (half / 2) (level + 1) [] (Or.inl (by simp)) _ s1 _ _ _ oc hbx
      have := owned_update (i := i) (c := c) o1 (by rw [Function.update_self]; exact e2) (by rw [Function.update_self]; exact e3)
      rw [Function.update_idem] at this
      refine ⟨b, s', c, e1, this.1, grown_trans o2 this.2, ?_⟩
      have hn0 : (TriPtrTree.leaf s.next (triSubpos pos half i) (half / 2) (level + 1) []).tree.need grows x = pushNeed grows 0 := by
        simp [TriPtrTree.tree, TriTree.need]
      rw [hn0] at e4
      refine ⟨fun hh => ?_, fun hh => ?_, fun hh => ?_, fun hh => ?_⟩
      · obtain ⟨q1, q2⟩ := e4.enough (by rw [hb1]; omega)
        exact ⟨q1, by omega⟩
      · exact e4.short (by rw [hb1]; omega)
      · rw [e4.good hh, hnull]
        simp [slotIns, TriPtrTree.tree, TriTree.ins]
      · have := e4.bad hh
        refine ⟨this.boxed, fun y hy => ?_, [], Or.inl rfl, fun y hy => ?_⟩
        · rcases this.only y hy with hy | hy
          · exfalso
            rw [TriPtrTree.tree, stored_leaf] at hy
            simp at hy
          · exact Or.inr hy
        · rw [hnull] at hy
          exact absurd hy (stored_null y)
  · obtain ⟨c0, hc0⟩ : ∃ c0, (ch i).ptr = some c0 := by
      cases hh : ch i with
      | null => exact absurd hh hnull
      | leaf a => exact ⟨_, rfl⟩
      | inner a => exact ⟨_, rfl⟩
    simp only [hp, hc0]
    have oc := owned_child h i
    rw [hc0] at oc
    obtain ⟨b, s', c, e1, e2, e3, e4⟩ := hi hnull c0 s _ _ _ oc hb
    rw [← hc0] at e2
    obtain ⟨q1, q2⟩ := owned_update h e2 e3
    refine ⟨b, s', c, e1, q1, q2, ?_⟩
    have : slotIns pos half level x i (ch i).tree = (ch i).tree.ins x := if_neg (fun hh => hnull (TriPtrTree.tree_null.mp hh))
    rw [this]
    exact e4

/-- State in the middle of `insertAsNode`: the octants of `P` have been served. -/
structure Mid (grows : Nat → Bool) (x : Tri) (a : Nat) (pos : Vec3 ℝ) (half : ℝ) (level : Nat) (P : Fin 8 → Prop) (b : Bool) (s s' : TriMem)
    (ch ch' : Fin 8 → TriPtrTree) (need : Nat) : Prop where
  owned : s'.Owned (some a) (.inner a pos half level ch')
  grown : Grown s s' (.inner a pos half level ch) (.inner a pos half level ch')
  enough : need ≤ s.budget → b = true ∧ s'.budget + need = s.budget
  short : s.budget < need → b = false
  good : b = true → (∀ i, P i → (ch' i).tree = slotIns pos half level x i (ch i).tree) ∧ ∀ i, ¬ P i → ch' i = ch i
  bad : b = false → ∃ i0, ((ch i0).tree).Broken (triSubpos pos half i0) (half / 2) (level + 1) x (ch' i0).tree ∧
    ∀ j, j ≠ i0 → (ch' j).tree = (ch j).tree ∨ (ch' j).tree = slotIns pos half level x j (ch j).tree

theorem mid_step {grows : Nat → Bool} {x : Tri} {a : Nat} {pos : Vec3 ℝ} {half : ℝ} {level : Nat} {P : Fin 8 → Prop} {s s1 : TriMem}
    {ch ch1 : Fin 8 → TriPtrTree} {need : Nat} (h : Mid grows x a pos half level P true s s1 ch ch1 need) (hl : level < 15)
    (hb : ∀ i, (ch i).tree.Boxed (triSubpos pos half i) (half / 2) (level + 1)) (hs : ∀ i, ch i ≠ .null → InsSpec grows x (ch i))
    (i : Fin 8) (hi : ¬ P i) : ∃ b s2 ch2, memByIndex grows a i x s1 = some (b, s2) ∧
      Mid grows x a pos half level (fun j => P j ∨ j = i) b s s2 ch ch2 (need + (ch i).tree.need grows x) := by
  obtain ⟨g1, g2⟩ := h.good rfl
  have e0 := g2 i hi
  obtain ⟨b, s2, c, e1, e2, e3, e4⟩ := byIndex_spec (grows := grows) (x := x) (i := i) h.owned hl (by rw [e0]; exact hb i) (by rw [e0]; exact hs i)
  rw [e0] at e4
  refine ⟨b, s2, _, e1, e2, grown_trans h.grown e3, fun hh => ?_, fun hh => ?_, fun hh => ⟨fun j hj => ?_, fun j hj => ?_⟩, fun hh => ⟨i, ?_, fun j hj => ?_⟩⟩
  · obtain ⟨-, q2⟩ := h.enough (by omega)
    obtain ⟨q3, q4⟩ := e4.enough (by omega)
    exact ⟨q3, by omega⟩
  · by_cases c1 : need ≤ s.budget
    · obtain ⟨-, q2⟩ := h.enough c1
      exact e4.short (by omega)
    · have := h.short (by omega)
      simp at this
  · by_cases hji : j = i
    · subst hji
      rw [Function.update_self]
      exact e4.good hh
    · rw [Function.update_of_ne hji]
      exact g1 j (hj.resolve_right hji)
  · rw [Function.update_of_ne (fun e => hj (Or.inr e))]
    exact g2 j fun e => hj (Or.inl e)
  · rw [Function.update_self]
    exact e4.bad hh
  · rw [Function.update_of_ne hj]
    by_cases hp : P j
    · exact Or.inr (g1 j hp)
    · exact Or.inl (by rw [g2 j hp])

theorem mid_skip {grows : Nat → Bool} {x : Tri} {a : Nat} {pos : Vec3 ℝ} {half : ℝ} {level : Nat} {P : Fin 8 → Prop} {s s1 : TriMem}
    {ch ch1 : Fin 8 → TriPtrTree} {need : Nat} (h : Mid grows x a pos half level P false s s1 ch ch1 need) (Q : Fin 8 → Prop) (k : Nat) :
    Mid grows x a pos half level Q false s s1 ch ch1 (need + k) := by
  refine ⟨h.owned, h.grown, fun hh => ?_, fun _ => rfl, fun hh => by simp at hh, h.bad⟩
  have := (h.enough (by omega)).1
  simp at this

theorem mid_congr {grows : Nat → Bool} {x : Tri} {a : Nat} {pos : Vec3 ℝ} {half : ℝ} {level : Nat} {P Q : Fin 8 → Prop} {b : Bool} {s s1 : TriMem}
    {ch ch1 : Fin 8 → TriPtrTree} {need need' : Nat} (h : Mid grows x a pos half level P b s s1 ch ch1 need) (hp : ∀ i, P i ↔ Q i) (hn : need = need') :
    Mid grows x a pos half level Q b s s1 ch ch1 need' := by
  obtain rfl : P = Q := funext fun i => propext (hp i)
  subst hn
  exact h

/-- `insertAsNode`. -/
theorem asNode_mid {grows : Nat → Bool} {x : Tri} {s : TriMem} {a : Nat} {pos : Vec3 ℝ} {half : ℝ} {level : Nat} {ch : Fin 8 → TriPtrTree}
    (h : s.Owned (some a) (.inner a pos half level ch)) (hl : level < 15)
    (hb : ∀ i, (ch i).tree.Boxed (triSubpos pos half i) (half / 2) (level + 1)) (hs : ∀ i, ch i ≠ .null → InsSpec grows x (ch i)) :
    ∃ b s' ch', memAsNode grows a x s = some (b, s') ∧
      Mid grows x a pos half level (triTarget pos half x) b s s' ch ch' (nodeNeed pos half x fun i => (ch i).tree.need grows x) := by
  obtain ⟨-, child, old, hm, -⟩ := h.rep
  rw [memAsNode]
  simp only [hm]
  unfold nodeNeed
  generalize h1 : triIndex pos half x.a = i1
  generalize h2 : triIndex pos half x.b = i2
  generalize h3 : triIndex pos half x.c = i3
  have tt : ∀ i, triTarget pos half x i ↔ i = i1 ∨ i = i2 ∨ i = i3 := by
    intro i; unfold triTarget; rw [h1, h2, h3]
  have m0 : Mid grows x a pos half level (fun _ => False) true s s ch ch 0 :=
    ⟨h, grown_refl _ _, fun _ => ⟨rfl, rfl⟩, fun hh => by omega, fun _ => ⟨fun _ hh => hh.elim, fun _ _ => rfl⟩, fun hh => by simp at hh⟩
  obtain ⟨b1, s1, ch1, e1, m1⟩ := mid_step m0 hl hb hs i1 (fun hh => hh)
  rw [e1]
  simp only [Option.bind_eq_bind, Option.bind_some]
  -- second
  obtain ⟨b2, s2, ch2, e2, m2⟩ : ∃ b2 s2 ch2, (if b1 = true ∧ i2 ≠ i1 then memByIndex grows a i2 x s1 else some (b1, s1)) = some (b2, s2) ∧
      Mid grows x a pos half level (fun i => i = i1 ∨ i = i2) b2 s s2 ch ch2 ((ch i1).tree.need grows x +
        (if i2 ≠ i1 then (ch i2).tree.need grows x else 0)) := by
    by_cases hc : i2 = i1
    · rw [if_neg (by tauto), if_neg (by simpa using hc)]
      exact ⟨b1, s1, ch1, rfl, mid_congr m1 (fun i => by rw [hc]; tauto) (by omega)⟩
    · rw [if_pos (show i2 ≠ i1 from hc)]
      cases b1 with
      | false =>
        rw [if_neg (by simp)]
        exact ⟨false, s1, ch1, rfl, mid_congr (mid_skip m1 (fun i => i = i1 ∨ i = i2) ((ch i2).tree.need grows x)) (fun i => Iff.rfl) (by omega)⟩
      | true =>
        rw [if_pos ⟨rfl, hc⟩]
        obtain ⟨b2, s2, ch2, e2, m2⟩ := mid_step m1 hl hb hs i2 (by simpa using hc)
        exact ⟨b2, s2, ch2, e2, mid_congr m2 (fun i => by tauto) (by omega)⟩
  have join : ∀ (c : Prop) [Decidable c] (A : Option (Bool × TriMem)) (B : Bool × TriMem) (f : (Bool × TriMem) → Option (Bool × TriMem)),
      (if c then A.bind f else f B) = (if c then A else some B).bind f := by
    intro c _ A B f; split_ifs <;> rfl
  have e2' := congrArg (fun o : Option (Bool × TriMem) => o.bind fun r => if r.1 = true ∧ i3 ≠ i2 ∧ i3 ≠ i1 then memByIndex grows a i3 x r.2 else some r) e2
  simp only [Option.bind_some] at e2'
  have goal : ∃ b s' ch', (if b2 = true ∧ i3 ≠ i2 ∧ i3 ≠ i1 then memByIndex grows a i3 x s2 else some (b2, s2)) = some (b, s') ∧
      Mid grows x a pos half level (triTarget pos half x) b s s' ch ch' ((ch i1).tree.need grows x +
        (if i2 ≠ i1 then (ch i2).tree.need grows x else 0) + (if i3 ≠ i2 ∧ i3 ≠ i1 then (ch i3).tree.need grows x else 0)) := by
    by_cases hc : i3 ≠ i2 ∧ i3 ≠ i1
    · rw [if_pos hc]
      cases b2 with
      | false =>
        rw [if_neg (by simp)]
        exact ⟨false, s2, ch2, rfl, mid_skip m2 _ _⟩
      | true =>
        rw [if_pos ⟨rfl, hc⟩]
        obtain ⟨b3, s3, ch3, e3, m3⟩ := mid_step m2 hl hb hs i3 (by tauto)
        exact ⟨b3, s3, ch3, e3, mid_congr m3 (fun i => by rw [tt]; tauto) rfl⟩
    · rw [if_neg (by tauto), if_neg hc]
      refine ⟨b2, s2, ch2, rfl, mid_congr m2 (fun i => ?_) (by omega)⟩
      rw [tt]
      constructor
      · tauto
      · rintro (hh | hh | hh)
        · exact Or.inl hh
        · exact Or.inr hh
        · subst hh; tauto
  obtain ⟨b, s', ch', e3, m3⟩ := goal
  refine ⟨b, s', ch', ?_, m3⟩
  rw [← e3, ← e2']
  by_cases hc : b1 = true ∧ i2 ≠ i1
  · rw [if_pos hc, if_pos hc]
  · rw [if_neg hc, if_neg hc]
    rfl

theorem mid_node {grows : Nat → Bool} {x : Tri} {a : Nat} {pos : Vec3 ℝ} {half : ℝ} {level : Nat} {b : Bool} {s s' : TriMem}
    {ch ch' : Fin 8 → TriPtrTree} {need : Nat} (h : Mid grows x a pos half level (triTarget pos half x) b s s' ch ch' need) (hl : level < 15)
    (hb : ∀ i, (ch i).tree.Boxed (triSubpos pos half i) (half / 2) (level + 1)) :
    InsRes b s s' need pos half level (.inner pos half level fun i => (ch i).tree) x (.inner pos half level fun i => (ch' i).tree)
      (.inner pos half level fun i => if triTarget pos half x i then slotIns pos half level x i (ch i).tree else (ch i).tree) := by
  refine ⟨h.enough, h.short, fun hh => ?_, fun hh => ?_⟩
  · obtain ⟨g1, g2⟩ := h.good hh
    congr 1
    funext i
    split_ifs with hi
    · exact g1 i hi
    · rw [g2 i hi]
  · obtain ⟨i0, hb0, hj⟩ := h.bad hh
    have hslotBox : ∀ j, (slotIns pos half level x j (ch j).tree).Boxed (triSubpos pos half j) (half / 2) (level + 1) := by
      intro j
      unfold slotIns
      split_ifs with hn
      · exact ⟨rfl, rfl, rfl, by omega, Or.inl (by simp)⟩
      · exact ins_boxed (hb j) x
    have hslotOnly : ∀ j y, (slotIns pos half level x j (ch j).tree).Stored y → (ch j).tree.Stored y ∨ y = x := by
      intro j y hy
      unfold slotIns at hy
      split_ifs at hy with hn
      · rw [stored_leaf] at hy
        exact Or.inr (by simpa using hy)
      · rcases (ins_stored hn x y).mp hy with hy | hy
        · exact Or.inl hy
        · exact Or.inr hy.1
    have hslotKeep : ∀ j y, (ch j).tree.Stored y → (slotIns pos half level x j (ch j).tree).Stored y := by
      intro j y hy
      unfold slotIns
      split_ifs with hn
      · rw [hn] at hy
        exact absurd hy (stored_null y)
      · exact (ins_stored hn x y).mpr (Or.inl hy)
    refine ⟨⟨rfl, rfl, rfl, hl, fun j => ?_⟩, fun y hy => ?_, ?_⟩
    · by_cases hji : j = i0
      · subst hji; exact hb0.boxed
      · rcases hj j hji with e | e
        · show (ch' j).tree.Boxed _ _ _
          rw [e]; exact hb j
        · show (ch' j).tree.Boxed _ _ _
          rw [e]; exact hslotBox j
    · rw [stored_inner] at hy ⊢
      obtain ⟨j, hy⟩ := hy
      have : (ch j).tree.Stored y ∨ y = x := by
        by_cases hji : j = i0
        · subst hji; exact hb0.only y hy
        · rcases hj j hji with e | e
          · rw [e] at hy; exact Or.inl hy
          · rw [e] at hy; exact hslotOnly j y hy
      rcases this with hh | hh
      · exact Or.inl ⟨j, hh⟩
      · exact Or.inr hh
    · obtain ⟨tris, ht, hlost⟩ := hb0.lost
      refine ⟨tris, ?_, fun y hy => ?_⟩
      · rcases ht with ht | ⟨p, hf, l, ht, ht'⟩
        · exact Or.inl ht
        · refine Or.inr ⟨p, hf, l, ?_, ht'⟩
          rw [TriTree.leaves]
          exact List.mem_flatMap.mpr ⟨i0, List.mem_finRange _, ht⟩
      · rw [stored_inner] at hy ⊢
        obtain ⟨j, hy⟩ := hy
        by_cases hji : j = i0
        · subst hji
          rcases hlost y hy with hh | hh
          · exact Or.inl ⟨j, hh⟩
          · exact Or.inr hh
        · left
          refine ⟨j, ?_⟩
          rcases hj j hji with e | e
          · rw [e]; exact hy
          · rw [e]; exact hslotKeep j y hy

/-- The octants during a split. -/
def Splitting (pos : Vec3 ℝ) (half : ℝ) (level : Nat) (l : List Tri) (ch : Fin 8 → TriPtrTree) : Prop := ∀ i, (ch i).tree = splitCh pos half level l i

theorem splitCh_boxed (pos : Vec3 ℝ) (half : ℝ) {level : Nat} (l : List Tri) (hl : level < 15) (h : l.length ≤ 60) (i : Fin 8) :
    (splitCh pos half level l i).Boxed (triSubpos pos half i) (half / 2) (level + 1) := by
  unfold splitCh
  split_ifs with c2
  · trivial
  · refine ⟨rfl, rfl, rfl, by omega, Or.inl ?_⟩
    have := List.length_filter_le (fun x => decide (triTarget pos half x i)) l
    omega

theorem splitCh_slot (pos : Vec3 ℝ) (half : ℝ) (level : Nat) (l : List Tri) (x : Tri) (h : l.length < 60) (i : Fin 8) :
    (if triTarget pos half x i then slotIns pos half level x i (splitCh pos half level l i) else splitCh pos half level l i) =
      splitCh pos half level (l ++ [x]) i := by
  have hf := List.length_filter_le (fun x => decide (triTarget pos half x i)) l
  split_ifs with hi
  · have e : (l ++ [x]).filter (fun x => triTarget pos half x i) = l.filter (fun x => triTarget pos half x i) ++ [x] := by
      rw [List.filter_append]; simp [hi]
    unfold slotIns splitCh
    rw [e, if_neg (show ¬ (l.filter (fun x => triTarget pos half x i) ++ [x] = []) by simp)]
    by_cases c : l.filter (fun x => triTarget pos half x i) = []
    · rw [if_pos c, if_pos rfl, c]; rfl
    · rw [if_neg c, if_neg (by simp), TriTree.ins, if_pos (Or.inl (by omega))]
  · unfold splitCh
    rw [List.filter_append]; simp [hi]

theorem splitCh_need (grows : Nat → Bool) (pos : Vec3 ℝ) (half : ℝ) (level : Nat) (l : List Tri) (x : Tri) (h : l.length < 60) (i : Fin 8) :
    (splitCh pos half level l i).need grows x = octantNeed grows
      (l.filter fun z => i = triIndex pos half z.a ∨ i = triIndex pos half z.b ∨ i = triIndex pos half z.c).length := by
  have hf := List.length_filter_le (fun x => decide (triTarget pos half x i)) l
  unfold splitCh octantNeed
  have e : (l.filter fun z => i = triIndex pos half z.a ∨ i = triIndex pos half z.b ∨ i = triIndex pos half z.c) = l.filter (fun x => triTarget pos half x i) :=
    List.filter_congr fun z _ => decide_eq_decide.mpr Iff.rfl
  rw [e]
  by_cases c : l.filter (fun x => triTarget pos half x i) = []
  · rw [if_pos c, c]; rfl
  · rw [if_neg c, TriTree.need, if_pos (Or.inl (by omega)), if_neg (by simpa using c)]

theorem splitting_spec {pos : Vec3 ℝ} {half : ℝ} {level : Nat} {l : List Tri} {ch : Fin 8 → TriPtrTree} (hc : Splitting pos half level l ch) (h : l.length < 60)
    (grows : Nat → Bool) (x : Tri) (i : Fin 8) (hn : ch i ≠ .null) : InsSpec grows x (ch i) := by
  have hf := List.length_filter_le (fun x => decide (triTarget pos half x i)) l
  have := hc i
  cases hh : ch i with
  | null => exact absurd hh hn
  | leaf c p hf' lv tris =>
    rw [hh] at this
    unfold splitCh at this
    split_ifs at this with c2
    · simp [TriPtrTree.tree] at this
    · simp only [TriPtrTree.tree, TriTree.leaf.injEq] at this
      obtain ⟨-, -, -, rfl⟩ := this
      exact insSpec_room grows x c p hf' lv _ (Or.inl (by omega))
  | inner c p hf' lv ch' =>
    rw [hh] at this
    unfold splitCh at this
    split_ifs at this <;> simp [TriPtrTree.tree] at this

theorem split_spec {grows : Nat → Bool} {a : Nat} {pos : Vec3 ℝ} {half : ℝ} {level : Nat} (hl : level < 15) :
    ∀ (tris l0 : List Tri) (s : TriMem) (ch : Fin 8 → TriPtrTree), (l0 ++ tris).length ≤ 60 → s.Owned (some a) (.inner a pos half level ch) →
      Splitting pos half level l0 ch → ∃ b s' ch', memSplit grows a tris s = some (b, s') ∧ s'.Owned (some a) (.inner a pos half level ch') ∧
        Grown s s' (.inner a pos half level ch) (.inner a pos half level ch') ∧
        (splitNeed grows pos half l0 tris ≤ s.budget → b = true ∧ s'.budget + splitNeed grows pos half l0 tris = s.budget) ∧
        (s.budget < splitNeed grows pos half l0 tris → b = false) ∧ (b = true → Splitting pos half level (l0 ++ tris) ch') ∧
        (TriPtrTree.inner a pos half level ch').tree.Boxed pos half level ∧ ∀ y, (TriPtrTree.inner a pos half level ch').tree.Stored y → y ∈ l0 ++ tris
  | [], l0, s, ch, hlen, h, hc => by
    refine ⟨true, s, ch, by rw [memSplit], h, grown_refl _ _, fun _ => ⟨rfl, rfl⟩, fun hh => by simp [splitNeed] at hh, fun _ => by simpa using hc, ?_, fun y hy => ?_⟩
    · refine ⟨rfl, rfl, rfl, hl, fun i => ?_⟩
      show (ch i).tree.Boxed _ _ _
      rw [hc i]
      exact splitCh_boxed pos half l0 hl (by simpa using hlen) i
    · rw [TriPtrTree.tree, stored_inner] at hy
      obtain ⟨i, hy⟩ := hy
      rw [hc i, stored_splitCh] at hy
      simpa using hy.1
  | x :: tris, l0, s, ch, hlen, h, hc => by
    have hlen0 : l0.length < 60 := by simp at hlen; omega
    have hbx : ∀ i, (ch i).tree.Boxed (triSubpos pos half i) (half / 2) (level + 1) := fun i => by
      rw [hc i]; exact splitCh_boxed pos half l0 hl hlen0.le i
    obtain ⟨b1, s1, ch1, e1, m1⟩ := asNode_mid (grows := grows) (x := x) h hl hbx (splitting_spec hc hlen0 grows x)
    have r1 := mid_node m1 hl hbx
    have hneed : splitNeed grows pos half l0 (x :: tris) = (nodeNeed pos half x fun i => (ch i).tree.need grows x) + splitNeed grows pos half (l0 ++ [x]) tris := by
      rw [splitNeed]
      congr 2
      funext i
      rw [hc i, splitCh_need grows pos half level l0 x hlen0 i]
    rw [memSplit, e1, hneed]
    generalize (nodeNeed pos half x fun i => (ch i).tree.need grows x) = k at m1 r1 ⊢
    simp only [Option.bind_eq_bind, Option.bind_some]
    have hold : ∀ y, (TriTree.inner pos half level fun i => (ch i).tree).Stored y → y ∈ l0 := by
      intro y hy
      rw [stored_inner] at hy
      obtain ⟨i, hy⟩ := hy
      rw [hc i, stored_splitCh] at hy
      exact hy.1
    cases b1 with
    | false =>
      rw [if_neg (by simp)]
      have hbad := r1.bad rfl
      refine ⟨false, s1, ch1, rfl, m1.owned, m1.grown, fun hh => ?_, fun _ => rfl, fun hh => by simp at hh, hbad.boxed, fun y hy => ?_⟩
      · have := (r1.enough (by omega)).1
        simp at this
      · rcases hbad.only y hy with hy | hy
        · exact List.mem_append_left _ (hold y hy)
        · simp [hy]
    | true =>
      rw [if_pos rfl]
      have hc1 : Splitting pos half level (l0 ++ [x]) ch1 := by
        intro i
        have := r1.good rfl
        simp only [TriTree.inner.injEq, true_and] at this
        have := congrFun this i
        rw [this, hc i]
        exact splitCh_slot pos half level l0 x hlen0 i
      obtain ⟨b, s', ch', e2, o2, g2, n2, k2, c2, b2, d2⟩ := split_spec hl tris (l0 ++ [x]) s1 ch1 (by simpa using hlen) m1.owned hc1
      refine ⟨b, s', ch', e2, o2, grown_trans m1.grown g2, fun hh => ?_, fun hh => ?_, fun hh => ?_, b2, fun y hy => ?_⟩
      · obtain ⟨-, q⟩ := r1.enough (by omega)
        obtain ⟨q1, q2⟩ := n2 (by omega)
        exact ⟨q1, by omega⟩
      · by_cases ck : k ≤ s.budget
        · obtain ⟨-, q⟩ := r1.enough ck
          exact k2 (by omega)
        · have := r1.short (by omega)
          simp at this
      · simpa using c2 hh
      · simpa using d2 y hy

/-- Insertion into a tree in memory, whatever allocation fails. -/
theorem insSpec (grows : Nat → Bool) (x : Tri) : ∀ (t : TriPtrTree), t ≠ .null → InsSpec grows x t
  | .null, hn => absurd rfl hn
  | .leaf c p hf lv tris, _ => by
    by_cases hroom : tris.length < 60 ∨ 15 ≤ lv
    · exact insSpec_room grows x c p hf lv tris hroom
    · intro a s pos half level h hb
      obtain ⟨h1, h2⟩ := h.rep
      obtain rfl : a = c := by injection h1
      obtain ⟨rfl, rfl, rfl, hb4, hb5⟩ := hb
      have hl : lv < 15 := by omega
      have hlen : tris.length ≤ 60 := hb5.resolve_right (by omega)
      have hlen' : tris.length = 60 := by omega
      have ho : (s.put a ⟨p, hf, false, lv, fun _ => none, tris⟩).Owned (some a) (.inner a p hf lv fun _ => .null) := by
        refine ⟨⟨rfl, fun _ => none, tris, by simp [TriMem.put], fun _ => rfl⟩, ⟨fun _ => ⟨trivial, fun hh => hh⟩, fun _ _ _ _ hh => hh.elim⟩, fun y hy => ?_⟩
        have : a < s.next := h.lt rfl
        have hy : s.next ≤ y := hy
        simp only [TriMem.put]
        rw [Function.update_of_ne (by omega)]
        exact h.unused y hy
      have hg : Grown s (s.put a ⟨p, hf, false, lv, fun _ => none, tris⟩) (.leaf a p hf lv tris) (.inner a p hf lv fun _ => .null) := by
        refine ⟨le_rfl, fun y => ?_, fun y hy _ => ?_⟩
        · simp only [TriPtrTree.Has, TriMem.put]
          constructor
          · rintro (hh | ⟨_, hh⟩)
            · exact Or.inl hh
            · exact hh.elim
          · rintro (hh | hh)
            · exact Or.inl hh
            · omega
        · simp only [TriMem.put]
          exact Function.update_of_ne hy _ _
      obtain ⟨b, s', ch', e2, o2, g2, n2, k2, c2, b2, d2⟩ := split_spec (grows := grows) hl tris [] _ _ (by simpa using hlen) ho
        (fun i => by simp [TriPtrTree.tree, splitCh])
      have hneed : (TriPtrTree.leaf a p hf lv tris).tree.need grows x = splitNeed grows p hf [] tris := by
        simp only [TriPtrTree.tree, TriTree.need]
        exact if_neg hroom
      have hins : (TriPtrTree.leaf a p hf lv tris).tree.ins x = .inner p hf lv (splitCh p hf lv tris) := by
        simp only [TriPtrTree.tree, TriTree.ins]
        exact if_neg hroom
      rw [hneed, hins, memInsert]
      simp only [h2, if_true, Option.bind_eq_bind]
      rw [if_neg (show ¬ (tris.length < splitTrianglesLimit ∨ lv ≥ triMaxDepth) from hroom)]
      rw [e2]
      simp only [Option.bind_some]
      cases b with
      | false =>
        rw [if_neg (by simp)]
        refine ⟨false, s', .inner a p hf lv ch', rfl, o2, grown_trans hg g2, n2, k2, fun hh => by simp at hh, fun _ => ⟨b2, fun y hy => ?_, tris, Or.inr ?_, fun y hy => ?_⟩⟩
        · left
          rw [TriPtrTree.tree, stored_leaf]
          simpa using d2 y hy
        · exact ⟨p, hf, lv, by simp [TriPtrTree.tree, TriTree.leaves], hlen'⟩
        · right
          rwa [TriPtrTree.tree, stored_leaf] at hy
      | true =>
        rw [if_pos rfl]
        obtain ⟨-, child, old, hm, hr⟩ := o2.rep
        simp only [hm]
        have hlt : a < s'.next := o2.lt (Or.inl rfl)
        refine ⟨true, _, .inner a p hf lv ch', rfl, ?_, ?_, n2, k2, fun _ => ?_, fun hh => by simp at hh⟩
        · refine ⟨⟨rfl, child, [], by simp [TriMem.put], fun i => ?_⟩, o2.sep, fun y hy => ?_⟩
          · refine mrep_congr _ _ (fun y hy => ?_) (hr i)
            simp only [TriMem.put]
            exact Function.update_of_ne (fun e : y = a => (o2.sep.1 i).2 (e ▸ hy)) _ _
          · have hy : s'.next ≤ y := hy
            simp only [TriMem.put]
            rw [Function.update_of_ne (by omega)]
            exact o2.unused y hy
        · have hgg := grown_trans hg g2
          refine ⟨hgg.next, hgg.has, fun y hy hy' => ?_⟩
          simp only [TriMem.put]
          rw [Function.update_of_ne (show y ≠ a from hy)]
          exact hgg.keep y hy hy'
        · simp only [TriPtrTree.tree]
          congr 1
          funext i
          simpa using c2 rfl i
  | .inner c p hf lv ch, _ => by
    intro a s pos half level h hb
    obtain ⟨h1, child, old, h2, h3⟩ := h.rep
    obtain rfl : a = c := by injection h1
    obtain ⟨rfl, rfl, rfl, hl, hb5⟩ := hb
    obtain ⟨b, s', ch', e1, m1⟩ := asNode_mid (grows := grows) (x := x) h hl hb5 (fun i hi => insSpec grows x (ch i) hi)
    refine ⟨b, s', .inner a p hf lv ch', ?_, m1.owned, m1.grown, mid_node m1 hl hb5⟩
    rw [memInsert]
    simp only [h2]
    simpa using e1

end
end Isomesh
