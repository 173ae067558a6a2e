import Verif.Spec.TriangleOctree
import Mathlib.Tactic.Linarith

/-! Insertion into the triangle octree. -/

namespace Isomesh

noncomputable section
open scoped Classical

/-- The children a triangle goes to. -/
def triTarget (pos : Vec3 ℝ) (half : ℝ) (x : Tri) (i : Fin 8) : Prop :=
  i = triIndex pos half x.a ∨ i = triIndex pos half x.b ∨ i = triIndex pos half x.c

/-- The children after a split. -/
def splitCh (pos : Vec3 ℝ) (half : ℝ) (level : Nat) (tris : List Tri) (i : Fin 8) : TriTree :=
  if tris.filter (fun x => triTarget pos half x i) = [] then .null
  else .leaf (triSubpos pos half i) (half / 2) (level + 1) (tris.filter (fun x => triTarget pos half x i))

/-- Total version of `insert`. -/
def TriTree.ins (x : Tri) : TriTree → TriTree
  | .null => .null
  | .leaf pos half level tris =>
    if tris.length < 60 ∨ 15 ≤ level then .leaf pos half level (tris ++ [x])
    else .inner pos half level (splitCh pos half level tris)
  | .inner pos half level ch => .inner pos half level fun i =>
    if triTarget pos half x i then
      if ch i = .null then .leaf (triSubpos pos half i) (half / 2) (level + 1) [x] else (ch i).ins x
    else ch i

/-- The child that receives the triangle. -/
def childOr (pos : Vec3 ℝ) (half : ℝ) (level : Nat) (ch : Fin 8 → TriTree) (i : Fin 8) : TriTree :=
  match ch i with
  | .null => TriTree.new (half / 2) (level + 1) (triSubpos pos half i)
  | t => t

theorem insertByIndex_eq (pos : Vec3 ℝ) (half : ℝ) (level : Nat) (ch : Fin 8 → TriTree) (i : Fin 8) (x : Tri) :
    TriTree.insertByIndex pos half level ch i x =
      (TriTree.insert (childOr pos half level ch i) x).bind fun c => some (Function.update ch i c) := by
  rw [TriTree.insertByIndex]
  rfl

theorem childOr_congr {pos : Vec3 ℝ} {half : ℝ} {level : Nat} {ch ch' : Fin 8 → TriTree} {i : Fin 8} (h : ch i = ch' i) :
    childOr pos half level ch i = childOr pos half level ch' i := by
  unfold childOr; rw [h]

theorem insertAsNode_eq {pos : Vec3 ℝ} {half : ℝ} {level : Nat} {ch : Fin 8 → TriTree} {x : Tri} {r : Fin 8 → TriTree}
    (h : ∀ i, triTarget pos half x i → TriTree.insert (childOr pos half level ch i) x = some (r i)) :
    TriTree.insertAsNode pos half level ch x = some (fun i => if triTarget pos half x i then r i else ch i) := by
  rw [TriTree.insertAsNode]
  dsimp only
  generalize h1 : triIndex pos half x.a = i1 at *
  generalize h2 : triIndex pos half x.b = i2 at *
  generalize h3 : triIndex pos half x.c = i3 at *
  have tt : ∀ i, triTarget pos half x i ↔ i = i1 ∨ i = i2 ∨ i = i3 := by
    intro i; unfold triTarget; rw [h1, h2, h3]
  rw [insertByIndex_eq, h i1 ((tt _).mpr (Or.inl rfl))]
  simp only [Option.bind_some, Option.bind_eq_bind]
  have e2 : (if i2 ≠ i1 then TriTree.insertByIndex pos half level (Function.update ch i1 (r i1)) i2 x
      else some (Function.update ch i1 (r i1))) = some (fun i => if i = i1 ∨ i = i2 then r i else ch i) := by
    by_cases c : i2 = i1
    · rw [if_neg (by simpa using c)]
      congr 1; funext i
      rw [c]
      by_cases hi : i = i1
      · subst hi; simp
      · simp [hi]
    · rw [if_pos c, insertByIndex_eq,
        childOr_congr (ch' := ch) (by rw [Function.update_of_ne c]), h i2 ((tt _).mpr (Or.inr (Or.inl rfl)))]
      simp only [Option.bind_some]
      congr 1; funext i
      by_cases hi2 : i = i2
      · subst hi2; simp
      · rw [Function.update_of_ne hi2]
        by_cases hi : i = i1
        · subst hi; simp
        · simp [hi, hi2]
  have join : ∀ (c : Prop) [Decidable c] (A : Option (Fin 8 → TriTree)) (B : Fin 8 → TriTree) (f : (Fin 8 → TriTree) → Option (Fin 8 → TriTree)),
      (if c then A.bind f else f B) = (if c then A else some B).bind f := by
    intro c _ A B f; split_ifs <;> rfl
  rw [join, e2]
  simp only [Option.bind_some]
  by_cases c : i3 ≠ i2 ∧ i3 ≠ i1
  · rw [if_pos c, insertByIndex_eq, childOr_congr (ch' := ch) (by simp [c.1, c.2]), h i3 ((tt _).mpr (Or.inr (Or.inr rfl)))]
    simp only [Option.bind_some]
    congr 1; funext i
    by_cases hi3 : i = i3
    · subst hi3; rw [Function.update_self, if_pos ((tt _).mpr (Or.inr (Or.inr rfl)))]
    · rw [Function.update_of_ne hi3]
      by_cases hi : i = i1 ∨ i = i2
      · rw [if_pos hi, if_pos ((tt _).mpr (by tauto))]
      · rw [if_neg hi, if_neg (by rw [tt]; tauto)]
  · rw [if_neg c]
    congr 1; funext i
    by_cases hi : i = i1 ∨ i = i2
    · rw [if_pos hi, if_pos ((tt _).mpr (by tauto))]
    · rw [if_neg hi, if_neg]
      rw [tt]
      rintro (hh | hh | hh)
      · exact hi (Or.inl hh)
      · exact hi (Or.inr hh)
      · apply c; subst hh; tauto

theorem insert_room {pos : Vec3 ℝ} {half : ℝ} {level : Nat} {tris : List Tri} {x : Tri} (h : tris.length < 60 ∨ 15 ≤ level) :
    TriTree.insert (.leaf pos half level tris) x = some (.leaf pos half level (tris ++ [x])) := by
  rw [TriTree.insert]
  exact if_pos h

theorem splitCh_snoc (pos : Vec3 ℝ) (half : ℝ) (level : Nat) (l : List Tri) (x : Tri) (h : l.length < 60) :
    TriTree.insertAsNode pos half level (splitCh pos half level l) x = some (splitCh pos half level (l ++ [x])) := by
  rw [insertAsNode_eq (r := splitCh pos half level (l ++ [x]))]
  · congr 1; funext i
    by_cases hi : triTarget pos half x i
    · rw [if_pos hi]
    · rw [if_neg hi]; unfold splitCh
      rw [List.filter_append]; simp [hi]
  · intro i hi
    have e : (l ++ [x]).filter (fun x => triTarget pos half x i) = l.filter (fun x => triTarget pos half x i) ++ [x] := by
      rw [List.filter_append]; simp [hi]
    have e2 : childOr pos half level (splitCh pos half level l) i
        = .leaf (triSubpos pos half i) (half / 2) (level + 1) (l.filter (fun x => triTarget pos half x i)) := by
      unfold childOr splitCh
      by_cases c : l.filter (fun x => triTarget pos half x i) = []
      · rw [if_pos c, c]; rfl
      · rw [if_neg c]
    rw [e2, insert_room (Or.inl (lt_of_le_of_lt (List.length_filter_le _ _) h))]
    unfold splitCh
    rw [e, if_neg (by simp)]

theorem split_fold (pos : Vec3 ℝ) (half : ℝ) (level : Nat) : ∀ (l l0 : List Tri), (l0 ++ l).length ≤ 60 →
    l.foldlM (TriTree.insertAsNode pos half level) (splitCh pos half level l0) = some (splitCh pos half level (l0 ++ l))
  | [], l0, _ => by simp
  | x :: l, l0, h => by
    rw [List.foldlM_cons, splitCh_snoc _ _ _ _ _ (by simp at h; omega)]
    show l.foldlM _ _ = _
    rw [split_fold pos half level l (l0 ++ [x]) (by simpa using h)]
    simp

/-- On trees of bounded leaves `insert` succeeds and is `ins`. -/
theorem insert_eq {t : TriTree} {pos : Vec3 ℝ} {half : ℝ} {level : Nat} (h : t.Boxed pos half level) (hn : t ≠ .null) (x : Tri) :
    t.insert x = some (t.ins x) := by
  induction t generalizing pos half level with
  | null => exact absurd rfl hn
  | leaf p hf lv tris =>
    obtain ⟨rfl, rfl, rfl, _, h5⟩ := h
    by_cases c : tris.length < 60 ∨ 15 ≤ lv
    · rw [insert_room c, TriTree.ins, if_pos c]
    · rw [TriTree.insert, if_neg (show ¬ (tris.length < splitTrianglesLimit ∨ lv ≥ triMaxDepth) from c), TriTree.ins, if_neg c]
      have := split_fold p hf lv tris [] (by simpa using h5.resolve_right (fun hh => c (Or.inr hh)))
      have e : splitCh p hf lv [] = fun _ => TriTree.null := by funext i; simp [splitCh]
      rw [e] at this
      rw [this]
      simp
  | inner p hf lv ch ih =>
    obtain ⟨rfl, rfl, rfl, _, h5⟩ := h
    rw [TriTree.insert]
    rw [insertAsNode_eq (r := fun i => if ch i = .null then .leaf (triSubpos p hf i) (hf / 2) (lv + 1) [x] else (ch i).ins x)]
    · rfl
    · intro i hi
      by_cases hc : ch i = .null
      · rw [if_pos hc]
        unfold childOr
        rw [hc, TriTree.new, insert_room (Or.inl (by simp))]
        rfl
      · rw [if_neg hc, ← ih i (h5 i) hc]
        congr 1
        unfold childOr
        cases hc' : ch i with
        | null => exact absurd hc' hc
        | leaf a b c d => rfl
        | inner a b c d => rfl

theorem ins_ne_null {t : TriTree} (h : t ≠ .null) (x : Tri) : t.ins x ≠ .null := by
  cases t with
  | null => exact absurd rfl h
  | leaf p hf lv tris => rw [TriTree.ins]; split_ifs <;> simp
  | inner p hf lv ch => rw [TriTree.ins]; simp

theorem ins_boxed {t : TriTree} {pos : Vec3 ℝ} {half : ℝ} {level : Nat} (h : t.Boxed pos half level) (x : Tri) :
    (t.ins x).Boxed pos half level := by
  induction t generalizing pos half level with
  | null => trivial
  | leaf p hf lv tris =>
    obtain ⟨rfl, rfl, rfl, h4, h5⟩ := h
    rw [TriTree.ins]
    split_ifs with c
    · refine ⟨rfl, rfl, rfl, h4, ?_⟩
      rcases c with c | c
      · left; simp; omega
      · exact Or.inr c
    · refine ⟨rfl, rfl, rfl, by omega, fun i => ?_⟩
      unfold splitCh
      split_ifs with c2
      · trivial
      · refine ⟨rfl, rfl, rfl, by omega, Or.inl ?_⟩
        have := List.length_filter_le (fun x => decide (triTarget p hf x i)) tris
        omega
  | inner p hf lv ch ih =>
    obtain ⟨rfl, rfl, rfl, h4, h5⟩ := h
    rw [TriTree.ins]
    refine ⟨rfl, rfl, rfl, h4, fun i => ?_⟩
    dsimp only
    split_ifs
    · exact ⟨rfl, rfl, rfl, by omega, Or.inl (by simp)⟩
    · exact ih i (h5 i)
    · exact h5 i

theorem stored_null (y : Tri) : ¬ TriTree.null.Stored y := by
  rintro ⟨pos, half, level, tris, h, _⟩
  simp [TriTree.leaves] at h

theorem stored_leaf {pos : Vec3 ℝ} {half : ℝ} {level : Nat} {tris : List Tri} {y : Tri} :
    (TriTree.leaf pos half level tris).Stored y ↔ y ∈ tris := by
  constructor
  · rintro ⟨p, h, lv, ts, hm, hy⟩
    simp only [TriTree.leaves, List.mem_singleton, Prod.mk.injEq] at hm
    rw [← hm.2.2.2]; exact hy
  · intro hy
    exact ⟨pos, half, level, tris, by simp [TriTree.leaves], hy⟩

theorem storedIn_inner {pos p : Vec3 ℝ} {half h : ℝ} {level : Nat} {ch : Fin 8 → TriTree} {y : Tri} :
    (TriTree.inner pos half level ch).StoredIn y p h ↔ ∃ i, (ch i).StoredIn y p h := by
  constructor
  · rintro ⟨lv, ts, hm, hy⟩
    simp only [TriTree.leaves, List.mem_flatMap] at hm
    obtain ⟨i, _, hm⟩ := hm
    exact ⟨i, lv, ts, hm, hy⟩
  · rintro ⟨i, lv, ts, hm, hy⟩
    refine ⟨lv, ts, ?_, hy⟩
    simp only [TriTree.leaves, List.mem_flatMap]
    exact ⟨i, List.mem_finRange i, hm⟩

theorem stored_inner {pos : Vec3 ℝ} {half : ℝ} {level : Nat} {ch : Fin 8 → TriTree} {y : Tri} :
    (TriTree.inner pos half level ch).Stored y ↔ ∃ i, (ch i).Stored y := by
  unfold TriTree.Stored
  simp only [storedIn_inner]
  constructor
  · rintro ⟨p, h, i, hh⟩; exact ⟨i, p, h, hh⟩
  · rintro ⟨i, p, h, hh⟩; exact ⟨p, h, i, hh⟩

theorem stored_splitCh {pos : Vec3 ℝ} {half : ℝ} {level : Nat} {tris : List Tri} {y : Tri} {i : Fin 8} :
    (splitCh pos half level tris i).Stored y ↔ y ∈ tris ∧ triTarget pos half y i := by
  unfold splitCh
  split_ifs with h
  · constructor
    · intro hh; exact absurd hh (stored_null y)
    · rintro ⟨h1, h2⟩
      have : y ∈ tris.filter (fun x => triTarget pos half x i) := by simp [h1, h2]
      rw [h] at this; simp at this
  · rw [stored_leaf]; simp

theorem hasRoom_inner {pos : Vec3 ℝ} {half : ℝ} {level : Nat} {ch : Fin 8 → TriTree} {x : Tri} :
    (TriTree.inner pos half level ch).HasRoom x ↔ ∃ i, triTarget pos half x i ∧ (ch i).HasRoom x := by
  rw [TriTree.HasRoom]
  unfold triTarget
  constructor
  · rintro (h | h | h)
    · exact ⟨_, Or.inl rfl, h⟩
    · exact ⟨_, Or.inr (Or.inl rfl), h⟩
    · exact ⟨_, Or.inr (Or.inr rfl), h⟩
  · rintro ⟨i, rfl | rfl | rfl, h⟩
    · exact Or.inl h
    · exact Or.inr (Or.inl h)
    · exact Or.inr (Or.inr h)

theorem ins_stored {t : TriTree} (hn : t ≠ .null) (x y : Tri) : (t.ins x).Stored y ↔ t.Stored y ∨ (y = x ∧ t.HasRoom x) := by
  induction t with
  | null => exact absurd rfl hn
  | leaf p hf lv tris =>
    rw [TriTree.ins, TriTree.HasRoom]
    split_ifs with c
    · rw [stored_leaf, stored_leaf]; simp [c]
    · rw [stored_inner, stored_leaf]
      simp only [stored_splitCh]
      constructor
      · rintro ⟨i, h, _⟩; exact Or.inl h
      · rintro (h | ⟨_, h⟩)
        · exact ⟨_, h, Or.inl rfl⟩
        · exact absurd h c
  | inner p hf lv ch ih =>
    rw [TriTree.ins, stored_inner, stored_inner, hasRoom_inner]
    constructor
    · rintro ⟨i, h⟩
      split_ifs at h with c1 c2
      · rw [stored_leaf] at h
        right
        refine ⟨by simpa using h, i, c1, ?_⟩
        rw [c2]; trivial
      · rcases (ih i c2).mp h with h | ⟨h1, h2⟩
        · exact Or.inl ⟨i, h⟩
        · exact Or.inr ⟨h1, i, c1, h2⟩
      · exact Or.inl ⟨i, h⟩
    · rintro (⟨i, h⟩ | ⟨h1, i, h2, h3⟩)
      · refine ⟨i, ?_⟩
        split_ifs with c1 c2
        · rw [c2] at h; exact absurd h (stored_null y)
        · exact (ih i c2).mpr (Or.inl h)
        · exact h
      · refine ⟨i, ?_⟩
        rw [if_pos h2]
        split_ifs with c2
        · rw [stored_leaf]; simp [h1]
        · exact (ih i c2).mpr (Or.inr ⟨h1, h3⟩)

/-- Trees grown from a new tree. -/
theorem build_snoc (half : ℝ) (pos : Vec3 ℝ) (l : List Tri) (x : Tri) :
    TriTree.build half pos (l ++ [x]) = (TriTree.build half pos l).bind fun t => t.insert x := by
  unfold TriTree.build
  rw [List.foldlM_append]
  simp only [List.foldlM_cons, List.foldlM_nil, bind_pure]
  rfl

theorem triBuild_ok (half : ℝ) (pos : Vec3 ℝ) (l : List Tri) :
    ∃ t, TriTree.build half pos l = some t ∧ t ≠ .null ∧ t.Boxed pos half 0 := by
  induction l using List.reverseRecOn with
  | nil => exact ⟨_, rfl, by simp [TriTree.new], rfl, rfl, rfl, by omega, Or.inl (by simp)⟩
  | append_singleton l x ih =>
    obtain ⟨t, h1, h2, h3⟩ := ih
    refine ⟨t.ins x, ?_, ins_ne_null h2 x, ins_boxed h3 x⟩
    rw [build_snoc, h1, Option.bind_some, insert_eq h3 h2]

theorem build_append (half : ℝ) (pos : Vec3 ℝ) (l : List Tri) {t : TriTree} (h : TriTree.build half pos l = some t) (l2 : List Tri) :
    TriTree.build half pos (l ++ l2) = some (l2.foldl (fun t x => t.ins x) t) := by
  induction l2 generalizing l t with
  | nil => simpa using h
  | cons x l2 ih =>
    obtain ⟨t0, h1, h2, h3⟩ := triBuild_ok half pos l
    rw [h] at h1
    obtain rfl := Option.some.inj h1
    have := ih (l ++ [x]) (t := t.ins x) (by rw [build_snoc, h, Option.bind_some, insert_eq h3 h2])
    simpa using this

/-- Small trees are one leaf. -/
theorem build_small (half : ℝ) (pos : Vec3 ℝ) (l : List Tri) (h : l.length ≤ 60) :
    TriTree.build half pos l = some (.leaf pos half 0 l) := by
  induction l using List.reverseRecOn with
  | nil => rfl
  | append_singleton l x ih =>
    simp only [List.length_append, List.length_singleton] at h
    rw [build_snoc, ih (by omega), Option.bind_some, insert_room (Or.inl (by omega))]

/-! ### The leaf of a corner -/

/-- The leaf has room, or the place is empty. -/
def NodeRoom : TriTree → Prop
  | .null => True
  | .leaf _ _ level tris => tris.length < 60 ∨ 15 ≤ level
  | .inner .. => False

theorem corner_target {x : Tri} {p : Vec3 ℝ} (h : x.Corner p) (pos : Vec3 ℝ) (half : ℝ) : triTarget pos half x (triIndex pos half p) := by
  unfold triTarget
  rcases h with rfl | rfl | rfl <;> simp

/-- `x` is in the leaf of `p`. -/
def AtLeaf (t : TriTree) (x : Tri) (p : Vec3 ℝ) : Prop := ∃ pos half level tris, t.descend p = .leaf pos half level tris ∧ x ∈ tris

theorem ins_atLeaf_new {t : TriTree} (hn : t ≠ .null) {x : Tri} {p : Vec3 ℝ} (hp : x.Corner p) (hr : NodeRoom (t.descend p)) :
    AtLeaf (t.ins x) x p := by
  induction t with
  | null => exact absurd rfl hn
  | leaf pos hf lv tris =>
    rw [TriTree.descend, NodeRoom] at hr
    rw [TriTree.ins, if_pos hr]
    exact ⟨_, _, _, _, rfl, by simp⟩
  | inner pos hf lv ch ih =>
    rw [TriTree.descend] at hr
    rw [TriTree.ins]
    unfold AtLeaf
    rw [TriTree.descend]
    rw [if_pos (corner_target hp pos hf)]
    split_ifs with c
    · exact ⟨_, _, _, _, rfl, by simp⟩
    · exact ih _ c hr

theorem ins_atLeaf {t : TriTree} {x y : Tri} {p : Vec3 ℝ} (hp : y.Corner p) (h : AtLeaf t y p) : AtLeaf (t.ins x) y p := by
  induction t with
  | null => exact h
  | leaf pos hf lv tris =>
    obtain ⟨_, _, _, _, h1, h2⟩ := h
    rw [TriTree.descend] at h1
    cases h1
    rw [TriTree.ins]
    split_ifs with c
    · exact ⟨_, _, _, _, rfl, by simp [h2]⟩
    · unfold AtLeaf
      rw [TriTree.descend]
      unfold splitCh
      have hm : y ∈ tris.filter (fun x => triTarget pos hf x (triIndex pos hf p)) := by
        simp [h2, corner_target hp pos hf]
      rw [if_neg (List.ne_nil_of_mem hm)]
      exact ⟨_, _, _, _, rfl, hm⟩
  | inner pos hf lv ch ih =>
    rw [TriTree.ins]
    unfold AtLeaf at h ⊢
    rw [TriTree.descend] at h ⊢
    split_ifs with c1 c2
    · rw [c2] at h
      obtain ⟨_, _, _, _, h1, _⟩ := h
      simp [TriTree.descend] at h1
    · exact ih _ h
    · exact h

theorem triIndex_bits (pos : Vec3 ℝ) (half : ℝ) (p : Vec3 ℝ) :
    ((triIndex pos half p).val &&& 1 ≠ 0 ↔ pos.x + half ≤ p.x) ∧ ((triIndex pos half p).val &&& 2 ≠ 0 ↔ pos.y + half ≤ p.y) ∧
    ((triIndex pos half p).val &&& 4 ≠ 0 ↔ pos.z + half ≤ p.z) := by
  unfold triIndex
  by_cases cx : p.x ≥ pos.x + half <;> by_cases cy : p.y ≥ pos.y + half <;> by_cases cz : p.z ≥ pos.z + half <;>
    simp only [if_pos, if_neg, cx, cy, cz, not_false_eq_true] <;>
    simp only [ge_iff_le, not_le] at cx cy cz <;>
    refine ⟨?_, ?_, ?_⟩ <;> simp only [*, iff_true, iff_false, not_le] <;> decide

theorem inBox_sub {pos p : Vec3 ℝ} {half : ℝ} (h : InBox pos half p) : InBox (triSubpos pos half (triIndex pos half p)) (half / 2) p := by
  obtain ⟨⟨x1, x2⟩, ⟨y1, y2⟩, z1, z2⟩ := h
  obtain ⟨b1, b2, b3⟩ := triIndex_bits pos half p
  unfold InBox triSubpos
  dsimp only
  refine ⟨?_, ?_, ?_⟩
  · by_cases c : pos.x + half ≤ p.x
    · rw [if_pos (b1.mpr c)]; constructor <;> linarith
    · rw [if_neg (fun h => c (b1.mp h))]; push Not at c; constructor <;> linarith
  · by_cases c : pos.y + half ≤ p.y
    · rw [if_pos (b2.mpr c)]; constructor <;> linarith
    · rw [if_neg (fun h => c (b2.mp h))]; push Not at c; constructor <;> linarith
  · by_cases c : pos.z + half ≤ p.z
    · rw [if_pos (b3.mpr c)]; constructor <;> linarith
    · rw [if_neg (fun h => c (b3.mp h))]; push Not at c; constructor <;> linarith

/-- The leaf of a point of the root box contains the point. -/
theorem atLeaf_storedIn {t : TriTree} {pos : Vec3 ℝ} {half : ℝ} {level : Nat} (h : t.Boxed pos half level) {x : Tri} {p : Vec3 ℝ}
    (hp : InBox pos half p) (hl : AtLeaf t x p) : ∃ pos' half', t.StoredIn x pos' half' ∧ InBox pos' half' p := by
  induction t generalizing pos half level with
  | null => obtain ⟨_, _, _, _, h1, _⟩ := hl; simp [TriTree.descend] at h1
  | leaf q hf lv tris =>
    obtain ⟨rfl, rfl, rfl, _, _⟩ := h
    obtain ⟨_, _, _, _, h1, h2⟩ := hl
    rw [TriTree.descend] at h1
    cases h1
    exact ⟨_, _, ⟨_, _, by simp [TriTree.leaves]; rfl, h2⟩, hp⟩
  | inner q hf lv ch ih =>
    obtain ⟨rfl, rfl, rfl, _, h5⟩ := h
    unfold AtLeaf at hl
    rw [TriTree.descend] at hl
    obtain ⟨pos', half', h1, h2⟩ := ih _ (h5 _) (inBox_sub hp) hl
    exact ⟨pos', half', storedIn_inner.mpr ⟨_, h1⟩, h2⟩

end
end Isomesh
