import Verif.Model.DSU
import Mathlib.Logic.Relation
import Mathlib.Data.Finset.Card
import Mathlib.Algebra.BigOperators.Group.Finset.Basic

/-! C30: the disjoint set union computes the equivalence generated by the unions. -/

set_option linter.unusedSectionVars false

namespace Isomesh
namespace DSU

/-! ### Specification -/

/-- Number of items after a call, given the number before it. -/
def Spec.itemsStep (n : Nat) : Op → Nat
  | .expand m => max n m
  | .addSet => n + 1
  | _ => n

/-- Number of items after the history. -/
def Spec.items (n : Nat) (ops : List Op) : Nat := ops.foldl Spec.itemsStep n

/-- Every call of the history only names items which exist when the call is made (the `assert`). -/
def Spec.Valid (n : Nat) (ops : List Op) : Prop :=
  ∀ pre op post, ops = pre ++ op :: post →
    match op with
    | .leader i => i < Spec.items n pre
    | .merge a b => a < Spec.items n pre ∧ b < Spec.items n pre
    | .same a b => a < Spec.items n pre ∧ b < Spec.items n pre
    | _ => True

/-- `x` and `y` are connected by a chain of performed unions. -/
def Spec.Connected (ops : List Op) : Nat → Nat → Prop :=
  Relation.EqvGen (fun x y => Op.merge x y ∈ ops)

/-! ### Invariant -/

structure Inv (d : DSU) (rep depth : Nat → Nat) : Prop where
  len : d.size.length = d.parent.length
  par : ∀ i < d.count, ∃ p, d.parent[i]? = some p ∧ p < d.count ∧ rep p = rep i ∧
    (p = i → rep i = i) ∧ (p ≠ i → depth p < depth i)
  out : ∀ i, d.count ≤ i → rep i = i
  sz : ∀ i < d.count, rep i = i →
    d.size[i]? = some ((Finset.range d.count).filter (fun j => rep j = i)).card

variable {d : DSU} {rep depth : Nat → Nat}

theorem Inv.root (h : Inv d rep depth) {i : Nat} (hi : i < d.count) :
    rep i < d.count ∧ d.parent[rep i]? = some (rep i) ∧ rep (rep i) = rep i ∧ depth (rep i) ≤ depth i := by
  induction hn : depth i using Nat.strong_induction_on generalizing i with
  | _ n ih =>
    obtain ⟨p, hp, hpn, hr, h1, h2⟩ := h.par i hi
    by_cases hpi : p = i
    · have := h1 hpi
      subst hpi
      rw [this]
      exact ⟨hi, hp, this, by omega⟩
    · have h3 := ih (depth p) (by have := h2 hpi; omega) hpn rfl
      rw [hr] at h3
      exact ⟨h3.1, h3.2.1, h3.2.2.1, by have := h2 hpi; omega⟩

/-- A representative is its own parent and conversely. -/
theorem Inv.parent_eq (h : Inv d rep depth) {i p : Nat} (hi : i < d.count) (hp : d.parent[i]? = some p) :
    p = i ↔ rep i = i := by
  constructor
  · intro hpi
    obtain ⟨q, hq, -, -, h1, -⟩ := h.par i hi
    rw [hq] at hp; cases hp
    exact h1 hpi
  · intro hr
    have := (h.root hi).2.1
    rw [hr, hp] at this
    exact Option.some.inj this

theorem Inv.set_parent (h : Inv d rep depth) {i : Nat} (hi : i < d.count) (hne : rep i ≠ i) :
    Inv ⟨d.parent.set i (rep i), d.size⟩ rep depth := by
  have hc : (DSU.mk (d.parent.set i (rep i)) d.size).count = d.count := by simp [count]
  have hroot := h.root hi
  refine ⟨by simp [h.len], ?_, fun k hk => h.out k (by rw [hc] at hk; exact hk), ?_⟩
  · intro j hj
    rw [hc] at hj ⊢
    by_cases hji : j = i
    · subst hji
      refine ⟨rep j, ?_, hroot.1, hroot.2.2.1, fun e => e, fun _ => ?_⟩
      · simp only [List.getElem?_set, if_true]
        rw [if_pos]; exact hi
      · obtain ⟨p, hp, hpn, hr, h1, h2⟩ := h.par j hi
        have hpj : p ≠ j := fun e => hne (h1 e)
        have := (h.root hpn).2.2.2
        rw [hr] at this
        exact lt_of_le_of_lt this (h2 hpj)
    · obtain ⟨p, hp, hrest⟩ := h.par j hj
      refine ⟨p, ?_, hrest⟩
      simp only [List.getElem?_set]
      rw [if_neg (fun e => hji e.symm)]; exact hp
  · intro j hj hr
    rw [hc] at hj ⊢
    exact h.sz j hj hr

theorem getSetLeader_spec (h : Inv d rep depth) {i : Nat} (hi : i < d.count) :
    ∃ d', d.getSetLeader i = some (d', rep i) ∧ Inv d' rep depth ∧ d'.count = d.count ∧ d'.size = d.size := by
  induction hn : depth i using Nat.strong_induction_on generalizing i with
  | _ n ih =>
    obtain ⟨p, hp, hpn, hr, h1, h2⟩ := h.par i hi
    rw [getSetLeader]
    simp only [hp]
    by_cases hpi : p = i
    · rw [if_pos hpi, h1 hpi]
      exact ⟨d, rfl, h, rfl, rfl⟩
    · rw [if_neg hpi]
      obtain ⟨d', hd', hinv, hcnt, hsz⟩ := ih (depth p) (by have := h2 hpi; omega) hpn rfl
      rw [hd', hr]
      have hl : i < d'.parent.length := by rw [← count, hcnt]; exact hi
      have hne : rep i ≠ i := fun e => hpi ((h.parent_eq hi hp).2 e)
      simp only [write, if_pos hl, Option.bind_eq_bind, Option.bind_some]
      refine ⟨_, rfl, hinv.set_parent (by rw [hcnt]; exact hi) hne, ?_, hsz⟩
      simpa [count] using hcnt

/-- Making root `a` a child of root `b`. -/
theorem Inv.link (h : Inv d rep depth) {a b sa sb : Nat} (ha : a < d.count) (hb : b < d.count)
    (hra : rep a = a) (hrb : rep b = b) (hab : a ≠ b)
    (hsa : d.size[a]? = some sa) (hsb : d.size[b]? = some sb) :
    Inv ⟨d.parent.set a b, d.size.set b (sb + sa)⟩ (fun i => if rep i = a then b else rep i)
      (fun i => if rep i = a then depth i + depth b + 1 else depth i) := by
  have hc : (DSU.mk (d.parent.set a b) (d.size.set b (sb + sa))).count = d.count := by simp [count]
  refine ⟨by simp [h.len], ?_, fun k hk => ?_, ?_⟩
  rotate_left
  · rw [hc] at hk
    rw [h.out k hk, if_neg (by omega)]
  rotate_right
  · intro j hj
    rw [hc] at hj ⊢
    obtain ⟨p, hp, hpn, hr, h1, h2⟩ := h.par j hj
    by_cases hja : j = a
    · subst hja
      refine ⟨b, ?_, hb, ?_, fun e => absurd e.symm hab, fun _ => ?_⟩
      · simp only [List.getElem?_set, if_true]; rw [if_pos]; exact ha
      · rw [hra, hrb]; simp
      · rw [hra, hrb, if_neg (fun e => hab e.symm), if_pos rfl]; omega
    · refine ⟨p, ?_, hpn, ?_, ?_, ?_⟩
      · simp only [List.getElem?_set]; rw [if_neg (fun e => hja e.symm)]; exact hp
      · rw [hr]
      · intro e
        have := h1 e
        rw [this, if_neg hja]
      · intro e
        have := h2 e
        rw [hr]
        split <;> omega
  · intro j hj hr
    rw [hc] at hj ⊢
    dsimp only at hr ⊢
    by_cases hjb : j = b
    · subst hjb
      have e1 := h.sz a ha hra
      have e2 := h.sz j hb hrb
      rw [hsa] at e1; rw [hsb] at e2
      simp only [List.getElem?_set, if_true]
      rw [if_pos (by rw [h.len]; exact hb)]
      rw [Option.some.inj e1, Option.some.inj e2, ← Finset.card_union_of_disjoint]
      · congr 2
        ext k
        simp only [Finset.mem_union, Finset.mem_filter, Finset.mem_range]
        constructor
        · rintro (⟨hk, e⟩ | ⟨hk, e⟩)
          · exact ⟨hk, by rw [e, if_neg (fun e => hab e.symm)]⟩
          · exact ⟨hk, by rw [e, if_pos rfl]⟩
        · rintro ⟨hk, e⟩
          split at e
          · right; exact ⟨hk, by assumption⟩
          · left; exact ⟨hk, e⟩
      · rw [Finset.disjoint_left]
        intro k hk hk'
        simp only [Finset.mem_filter] at hk hk'
        exact hab (hk'.2.symm.trans hk.2)
    · have hja : j ≠ a := by
        rintro rfl
        rw [if_pos hra] at hr; exact hjb hr.symm
      have hrj : rep j = j := by
        split at hr
        · exact absurd hr.symm hjb
        · exact hr
      simp only [List.getElem?_set]
      rw [if_neg (fun e => hjb e.symm), h.sz j hj hrj]
      congr 2
      ext k
      simp only [Finset.mem_filter]
      constructor
      · rintro ⟨hk, e⟩
        exact ⟨hk, by rw [e, if_neg hja]⟩
      · rintro ⟨hk, e⟩
        split at e
        · exact absurd e.symm hjb
        · exact ⟨hk, e⟩

theorem write_lt {α : Type} {l : List α} {i : Nat} (v : α) (h : i < l.length) :
    write l i v = some (l.set i v) := by simp [write, h]

theorem mergeSets_spec (h : Inv d rep depth) {a b : Nat} (ha : a < d.count) (hb : b < d.count) :
    ∃ d' rep' depth', d.mergeSets a b = some d' ∧ Inv d' rep' depth' ∧ d'.count = d.count ∧
      ∀ i j, (rep' i = rep' j ↔
        rep i = rep j ∨ (rep i = rep a ∧ rep j = rep b) ∨ (rep i = rep b ∧ rep j = rep a)) := by
  obtain ⟨d1, e1, h1, c1, -⟩ := getSetLeader_spec h ha
  obtain ⟨d2, e2, h2, c2, -⟩ := getSetLeader_spec h1 (i := b) (by omega)
  have hA := h.root ha
  have hB := h.root hb
  unfold mergeSets
  simp only [e1, e2, Option.bind_eq_bind, Option.bind_some]
  by_cases hab : rep a = rep b
  · rw [if_pos hab]
    refine ⟨d2, rep, depth, rfl, h2, by omega, fun i j => ?_⟩
    constructor
    · exact Or.inl
    · rintro (h | h | h)
      · exact h
      · rw [h.1, h.2, hab]
      · rw [h.1, h.2, hab]
  · rw [if_neg hab]
    have cA : rep a < d2.count := by omega
    have cB : rep b < d2.count := by omega
    have sA := h2.sz (rep a) cA hA.2.2.1
    have sB := h2.sz (rep b) cB hB.2.2.1
    generalize hsA : (Finset.filter (fun j => rep j = rep a) (Finset.range d2.count)).card = sa at sA
    generalize hsB : (Finset.filter (fun j => rep j = rep b) (Finset.range d2.count)).card = sb at sB
    have lA : rep a < d2.parent.length := cA
    have lB : rep b < d2.parent.length := cB
    simp only [sA, sB, Option.bind_some]
    split
    · rw [write_lt _ lA, write_lt _ (by rw [h2.len]; exact lB)]
      refine ⟨_, _, _, rfl, h2.link cA cB hA.2.2.1 hB.2.2.1 hab sA sB, by simp [count] at *; omega, ?_⟩
      intro i j
      by_cases x1 : rep i = rep a <;> by_cases x2 : rep j = rep a <;> simp [x1, x2, hab]
      all_goals tauto
    · rw [write_lt _ lB, write_lt _ (by rw [h2.len]; exact lA)]
      refine ⟨_, _, _, rfl, h2.link cB cA hB.2.2.1 hA.2.2.1 (fun e => hab e.symm) sB sA,
        by simp [count] at *; omega, ?_⟩
      intro i j
      have hba : ¬ rep b = rep a := fun e => hab e.symm
      by_cases x1 : rep i = rep b <;> by_cases x2 : rep j = rep b <;> simp [x1, x2, hba]
      all_goals tauto

theorem expand_spec (h : Inv d rep depth) (n : Nat) :
    Inv (d.expand n) rep depth ∧ (d.expand n).count = max d.count n := by
  unfold expand
  split
  case isTrue hn => exact ⟨h, by omega⟩
  case isFalse hn =>
    have hc : (DSU.mk (d.parent ++ (List.range (n - d.count)).map (fun k => d.count + k))
        (d.size ++ List.replicate (n - d.count) 1)).count = n := by
      simp [count] at *; omega
    have hl : d.parent.length = d.count := rfl
    refine ⟨⟨?_, ?_, fun i hi => h.out i (by rw [hc] at hi; omega), ?_⟩, by rw [hc]; omega⟩
    · simp [h.len]
    · intro i hi
      rw [hc] at hi ⊢
      by_cases hid : i < d.count
      · obtain ⟨p, hp, hpn, hrest⟩ := h.par i hid
        refine ⟨p, ?_, by omega, hrest⟩
        rw [List.getElem?_append_left hid]; exact hp
      · refine ⟨i, ?_, hi, rfl, fun _ => h.out i (by omega), fun e => absurd rfl e⟩
        rw [List.getElem?_append_right (by omega)]
        simp only [List.getElem?_map]
        rw [List.getElem?_range (by omega)]
        simp; omega
    · intro i hi hr
      rw [hc] at hi ⊢
      have hsplit : (Finset.range n).filter (fun j => rep j = i) =
          if i < d.count then (Finset.range d.count).filter (fun j => rep j = i) else {i} := by
        ext k
        split
        case isTrue hid =>
          simp only [Finset.mem_filter, Finset.mem_range]
          constructor
          · rintro ⟨hk, e⟩
            refine ⟨?_, e⟩
            by_contra hkd
            rw [h.out k (by omega)] at e; omega
          · rintro ⟨hk, e⟩; exact ⟨by omega, e⟩
        case isFalse hid =>
          simp only [Finset.mem_filter, Finset.mem_range, Finset.mem_singleton]
          constructor
          · rintro ⟨hk, e⟩
            by_cases hkd : k < d.count
            · have := (h.root hkd).1; omega
            · rw [h.out k (by omega)] at e; exact e
          · rintro rfl; exact ⟨hi, hr⟩
      rw [hsplit]
      by_cases hid : i < d.count
      · rw [if_pos hid, List.getElem?_append_left (by rw [h.len]; exact hid)]
        exact h.sz i hid hr
      · rw [if_neg hid, List.getElem?_append_right (by rw [h.len]; omega), h.len]
        rw [List.getElem?_replicate, if_pos (by omega)]
        simp

theorem mk'_spec (n : Nat) : Inv (mk' n) id (fun _ => 0) ∧ (mk' n).count = n := by
  have h0 : Inv (DSU.mk [] []) id (fun _ => 0) :=
    ⟨rfl, fun i hi => absurd hi (by simp [count]), fun _ _ => rfl, fun i hi => absurd hi (by simp [count])⟩
  have h := expand_spec h0 n
  have e : (DSU.mk [] []).expand n = mk' n := by
    unfold expand mk'
    by_cases hn : n = 0
    · subst hn; rfl
    · rw [if_neg (by simp [count]; omega)]
      simp [count]
  rw [e] at h
  exact ⟨h.1, by rw [h.2]; simp [count]⟩

theorem Spec.connected_snoc {ops : List Op} {a b i j : Nat} :
    Spec.Connected (ops ++ [Op.merge a b]) i j ↔ Spec.Connected ops i j ∨
      (Spec.Connected ops i a ∧ Spec.Connected ops j b) ∨ (Spec.Connected ops i b ∧ Spec.Connected ops j a) := by
  have mono : ∀ {i j}, Spec.Connected ops i j → Spec.Connected (ops ++ [Op.merge a b]) i j := by
    intro i j h
    induction h with
    | rel x y h => exact Relation.EqvGen.rel _ _ (List.mem_append_left _ h)
    | refl => exact Relation.EqvGen.refl _
    | symm _ _ _ ih => exact Relation.EqvGen.symm _ _ ih
    | trans _ _ _ _ _ h1 h2 => exact Relation.EqvGen.trans _ _ _ h1 h2
  have last : Spec.Connected (ops ++ [Op.merge a b]) a b := Relation.EqvGen.rel _ _ (by simp)
  constructor
  · intro h
    induction h with
    | rel x y hxy =>
      rcases List.mem_append.1 hxy with h | h
      · exact Or.inl (Relation.EqvGen.rel _ _ h)
      · simp only [List.mem_singleton, Op.merge.injEq] at h
        obtain ⟨rfl, rfl⟩ := h
        exact Or.inr (Or.inl ⟨Relation.EqvGen.refl _, Relation.EqvGen.refl _⟩)
    | refl x => exact Or.inl (Relation.EqvGen.refl _)
    | symm x y _ ih =>
      rcases ih with h | h | h
      · exact Or.inl (Relation.EqvGen.symm _ _ h)
      · exact Or.inr (Or.inr ⟨h.2, h.1⟩)
      · exact Or.inr (Or.inl ⟨h.2, h.1⟩)
    | trans x y z _ _ ih1 ih2 =>
      have tr : ∀ {x y z}, Spec.Connected ops x y → Spec.Connected ops y z → Spec.Connected ops x z :=
        fun h1 h2 => Relation.EqvGen.trans _ _ _ h1 h2
      have sm : ∀ {x y}, Spec.Connected ops x y → Spec.Connected ops y x :=
        fun h => Relation.EqvGen.symm _ _ h
      rcases ih1 with h | h | h <;> rcases ih2 with h' | h' | h'
      · exact Or.inl (tr h h')
      · exact Or.inr (Or.inl ⟨tr h h'.1, h'.2⟩)
      · exact Or.inr (Or.inr ⟨tr h h'.1, h'.2⟩)
      · exact Or.inr (Or.inl ⟨h.1, tr (sm h') h.2⟩)
      · exact Or.inr (Or.inl ⟨h.1, h'.2⟩)
      · exact Or.inl (tr h.1 (sm h'.2))
      · exact Or.inr (Or.inr ⟨h.1, tr (sm h') h.2⟩)
      · exact Or.inl (tr h.1 (sm h'.2))
      · exact Or.inr (Or.inr ⟨h.1, h'.2⟩)
  · rintro (h | ⟨h1, h2⟩ | ⟨h1, h2⟩)
    · exact mono h
    · exact Relation.EqvGen.trans _ _ _ (mono h1)
        (Relation.EqvGen.trans _ _ _ last (Relation.EqvGen.symm _ _ (mono h2)))
    · exact Relation.EqvGen.trans _ _ _ (mono h1)
        (Relation.EqvGen.trans _ _ _ (Relation.EqvGen.symm _ _ last) (Relation.EqvGen.symm _ _ (mono h2)))

theorem Spec.connected_snoc_other {ops : List Op} {op : Op} (h : ∀ a b, op ≠ Op.merge a b) {i j : Nat} :
    Spec.Connected (ops ++ [op]) i j ↔ Spec.Connected ops i j := by
  have : (fun x y => Op.merge x y ∈ ops ++ [op]) = fun x y => Op.merge x y ∈ ops := by
    funext x y
    simp only [List.mem_append, List.mem_singleton, eq_iff_iff, or_iff_left_iff_imp]
    intro e; exact absurd e.symm (h x y)
  unfold Spec.Connected
  rw [this]

theorem run_snoc (n : Nat) (ops : List Op) (op : Op) : run n (ops ++ [op]) = (run n ops).bind (step · op) := by
  unfold run
  rw [List.foldlM_append]
  cases h : List.foldlM step (mk' n) ops <;> simp

theorem run_spec (n : Nat) (ops : List Op) (hv : Spec.Valid n ops) :
    ∃ d rep depth, run n ops = some d ∧ Inv d rep depth ∧ d.count = Spec.items n ops ∧
      ∀ i j, rep i = rep j ↔ Spec.Connected ops i j := by
  induction ops using List.reverseRecOn with
  | nil =>
    refine ⟨mk' n, id, _, rfl, (mk'_spec n).1, (mk'_spec n).2, fun i j => ?_⟩
    constructor
    · rintro rfl; exact Relation.EqvGen.refl _
    · intro h
      induction h with
      | rel x y h => cases h
      | refl => rfl
      | symm _ _ _ ih => exact ih.symm
      | trans _ _ _ _ _ h1 h2 => exact h1.trans h2
  | append_singleton ops op ih =>
    obtain ⟨d, rep, depth, hrun, hinv, hcnt, hconn⟩ := ih (by
      intro pre o post e
      exact hv pre o (post ++ [op]) (by rw [e]; simp))
    have hop := hv ops op [] (by simp)
    have hitems : Spec.items n (ops ++ [op]) = Spec.itemsStep (Spec.items n ops) op := by
      unfold Spec.items; rw [List.foldl_append]; rfl
    rw [run_snoc, hrun, hitems, Option.bind_some]
    cases op with
    | expand m =>
      have he := expand_spec hinv m
      refine ⟨_, rep, depth, rfl, he.1, by rw [he.2, hcnt]; rfl, fun i j => ?_⟩
      rw [Spec.connected_snoc_other (by intros; simp)]; exact hconn i j
    | addSet =>
      have he := expand_spec hinv (d.count + 1)
      refine ⟨_, rep, depth, rfl, he.1, ?_, fun i j => ?_⟩
      · show (d.expand (d.count + 1)).count = _
        rw [he.2, hcnt]; simp [Spec.itemsStep]
      · rw [Spec.connected_snoc_other (by intros; simp)]; exact hconn i j
    | leader k =>
      dsimp only at hop
      obtain ⟨d', e, hinv', hc', -⟩ := getSetLeader_spec hinv (i := k) (by omega)
      refine ⟨d', rep, depth, by simp [step, e], hinv', hc'.trans hcnt, fun i j => ?_⟩
      rw [Spec.connected_snoc_other (by intros; simp)]; exact hconn i j
    | same a b =>
      dsimp only at hop
      obtain ⟨d1, e1, hinv1, hc1, -⟩ := getSetLeader_spec hinv (i := a) (by omega)
      obtain ⟨d2, e2, hinv2, hc2, -⟩ := getSetLeader_spec hinv1 (i := b) (by omega)
      refine ⟨d2, rep, depth, by simp [step, areInSameSet, e1, e2], hinv2, (hc2.trans hc1).trans hcnt, fun i j => ?_⟩
      rw [Spec.connected_snoc_other (by intros; simp)]; exact hconn i j
    | merge a b =>
      dsimp only at hop
      obtain ⟨d', rep', depth', e, hinv', hc', hiff⟩ :=
        mergeSets_spec hinv (a := a) (b := b) (by omega) (by omega)
      refine ⟨d', rep', depth', e, hinv', hc'.trans hcnt, fun i j => ?_⟩
      rw [hiff, Spec.connected_snoc]
      simp only [hconn]

end DSU

/-- C30.  After any history of calls naming existing items, nothing has failed or diverged, and:
`getSetLeader` terminates on every item; it returns an existing item connected to the argument; two items
have the same leader iff they are connected by performed unions; asking (path compression) changes no
later answer; `areInSameSet` answers connectedness; every stored number is at most the item count. -/
theorem C30_dsu (n : Nat) (ops : List DSU.Op) (hv : DSU.Spec.Valid n ops) :
    ∃ d, DSU.run n ops = some d ∧ d.count = DSU.Spec.items n ops ∧
      ∃ leader : Nat → Nat,
        (∀ i < d.count, leader i < d.count ∧ DSU.Spec.Connected ops i (leader i) ∧
          ∃ d', d.getSetLeader i = some (d', leader i) ∧ d'.count = d.count ∧
            ∀ j < d.count, (d'.getSetLeader j).map (·.2) = some (leader j)) ∧
        (∀ i < d.count, ∀ j < d.count, leader i = leader j ↔ DSU.Spec.Connected ops i j) ∧
        (∀ i < d.count, ∀ j < d.count, ∃ d' ans, d.areInSameSet i j = some (d', ans) ∧
          (ans = true ↔ DSU.Spec.Connected ops i j)) ∧
        (∀ p ∈ d.parent, p < d.count) ∧
        (∀ i < d.count, leader i = i → ∃ s, d.size[i]? = some s ∧ s ≤ d.count ∧
          s = ((Finset.range d.count).filter (fun j => leader j = i)).card) := by
  obtain ⟨d, rep, depth, hrun, hinv, hcnt, hconn⟩ := DSU.run_spec n ops hv
  refine ⟨d, hrun, hcnt, rep, ?_, fun i _ j _ => hconn i j, ?_, ?_, ?_⟩
  · intro i hi
    have hr := hinv.root hi
    refine ⟨hr.1, (hconn _ _).1 hr.2.2.1.symm, ?_⟩
    obtain ⟨d', e, hinv', hc', -⟩ := DSU.getSetLeader_spec hinv hi
    refine ⟨d', e, hc', fun j hj => ?_⟩
    obtain ⟨d'', e'', -⟩ := DSU.getSetLeader_spec hinv' (i := j) (by omega)
    rw [e'']; rfl
  · intro i hi j hj
    obtain ⟨d1, e1, hinv1, hc1, -⟩ := DSU.getSetLeader_spec hinv hi
    obtain ⟨d2, e2, -⟩ := DSU.getSetLeader_spec hinv1 (i := j) (by omega)
    refine ⟨d2, decide (rep i = rep j), by simp [DSU.areInSameSet, e1, e2], ?_⟩
    rw [decide_eq_true_iff]; exact hconn i j
  · intro p hp
    obtain ⟨i, hi, e⟩ := List.getElem_of_mem hp
    obtain ⟨q, hq, hqn, -⟩ := hinv.par i hi
    rw [List.getElem?_eq_getElem hi, e] at hq
    cases hq; exact hqn
  · intro i hi hr
    refine ⟨_, hinv.sz i hi hr, ?_, rfl⟩
    exact (Finset.card_filter_le _ _).trans (by simp)

/-- Non-vacuity of C30: a valid history with unions, growth and queries. -/
example : DSU.Spec.Valid 3 [.merge 0 2, .addSet, .merge 3 1, .same 0 3] := by
  intro pre op post e
  rcases pre with _ | ⟨a, _ | ⟨b, _ | ⟨c, _ | ⟨e', _ | ⟨f, pre⟩⟩⟩⟩⟩ <;> simp at e <;>
    (try obtain ⟨rfl, rfl, rfl, rfl, rfl, rfl⟩ := e) <;> (try obtain ⟨rfl, rfl⟩ := e) <;>
    simp_all [DSU.Spec.items, DSU.Spec.itemsStep]

/-- ... and 0, 2 are connected after it. -/
example : DSU.Spec.Connected [.merge 0 2, .addSet, .merge 3 1, .same 0 3] 2 0 :=
  Relation.EqvGen.symm _ _ (Relation.EqvGen.rel _ _ (by simp))

end Isomesh
