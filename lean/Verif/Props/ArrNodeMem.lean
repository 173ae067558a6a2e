import Verif.Model.ArrNodeMem
import Mathlib.Tactic.Linarith
import Mathlib.Algebra.BigOperators.Fin

/-! Property C67: allocation failures during `MDC_Octree::build` and `DMC_Octree::build`. -/

namespace Isomesh

open scoped Classical

/-! ### Specification -/

/-- A tree of nodes whose children are kept in blocks. -/
inductive ArrTree where
  | leaf
  | inner (c : Nat) (ch : Fin 8 → ArrTree)

/-- The blocks below a node. -/
def ArrTree.Has : ArrTree → Nat → Prop
  | .leaf, _ => False
  | .inner c ch, x => x = c ∨ ∃ i, (ch i).Has x

/-- No block occurs twice. -/
def ArrTree.Sep : ArrTree → Prop
  | .leaf => True
  | .inner c ch => (∀ i, (ch i).Sep ∧ ¬ (ch i).Has c) ∧ ∀ i j, i ≠ j → ∀ x, (ch i).Has x → ¬ (ch j).Has x

/-- Element `i` of block `b` is the root of the tree. -/
def ArrTree.Rep {N : Type} (ops : ArrOps N) (mem : Nat → Option (Fin 8 → N)) : ArrTree → Nat → Fin 8 → Prop
  | .leaf, b, i => ∃ ns, mem b = some ns ∧ ops.isLeaf (ns i) = true
  | .inner c ch, b, i => ∃ ns, mem b = some ns ∧ ops.isLeaf (ns i) = false ∧ ops.kids (ns i) = .node c ∧ ∀ j, (ch j).Rep ops mem c j

/-- The octree with root at element 0 of block `r` is the tree `t`. -/
structure ArrState.Octree {N : Type} (ops : ArrOps N) (s : ArrState N) (r : Nat) (t : ArrTree) : Prop where
  rep : t.Rep ops s.mem r 0
  sep : t.Sep
  root : ¬ t.Has r ∧ r < s.next
  unused : ∀ x, s.next ≤ x → s.mem x = none

/-- The number of allocations needed to build a node. -/
def arrNeed (plan : ArrPlan) : Nat → IVec3 → Nat
  | 0, lo => plan.leafAllocs lo 0
  | k + 1, lo => if plan.split lo (k + 1) then 1 + ((List.finRange 8).map fun j => arrNeed plan k (childCorner lo k j)).sum else plan.leafAllocs lo (k + 1)

/-- The tree is subdivided as planned. -/
def ArrTree.Shape (t : ArrTree) (plan : ArrPlan) : Nat → IVec3 → Prop
  | 0, _ => t = .leaf
  | k + 1, lo => if plan.split lo (k + 1) then ∃ c ch, t = .inner c ch ∧ ∀ j, (ch j).Shape plan k (childCorner lo k j) else t = .leaf

/-- What both classes of nodes guarantee. -/
structure ArrOps.Lawful {N : Type} (ops : ArrOps N) : Prop where
  new_leaf : ops.isLeaf ops.new = true
  unlink_leaf : ∀ n, ops.isLeaf (ops.unlink n) = true
  link_inner : ∀ b n, ops.isLeaf (ops.link b n) = false
  link_kids : ∀ b n, ops.kids (ops.link b n) = .node b
  data_leaf : ∀ n, ops.isLeaf (ops.data n) = ops.isLeaf n
  free_leaf : ops.guarded = false → ∀ n, ops.isLeaf n = true → ops.kids n = .null

theorem mdcOps_lawful : mdcOps.Lawful where
  new_leaf := rfl
  unlink_leaf _ := rfl
  link_inner _ _ := rfl
  link_kids _ _ := rfl
  data_leaf _ := rfl
  free_leaf h := by cases h

theorem dmcOps_lawful : dmcOps.Lawful where
  new_leaf := rfl
  unlink_leaf _ := rfl
  link_inner _ _ := rfl
  link_kids _ _ := rfl
  data_leaf _ := rfl
  free_leaf _ n h := by cases n <;> simp_all [dmcOps]

variable {N : Type} {ops : ArrOps N}

/-! ### Deletion -/

theorem ArrState.ext' {s s' : ArrState N} (h : ∀ x, s.mem x = s'.mem x) (h1 : s.next = s'.next) (h2 : s.budget = s'.budget) : s = s' := by
  cases s; cases s'
  simp only at h h1 h2
  subst h1 h2
  congr
  funext x; exact h x

/-- The state after freeing blocks. -/
noncomputable def ArrState.clear (s : ArrState N) (P : Nat → Prop) : ArrState N := { s with mem := fun x => if P x then none else s.mem x }

/-- A block replaced. -/
def ArrState.put (s : ArrState N) (b : Nat) (ns : Fin 8 → N) : ArrState N := { s with mem := Function.update s.mem b (some ns) }

/-- The node after `collapse`. -/
def arrDone (ops : ArrOps N) (n : N) : N := if ops.guarded && ops.isLeaf n then n else ops.unlink n

theorem write_put {s : ArrState N} {b : Nat} {i : Fin 8} {n : N} {ns : Fin 8 → N} (h : s.mem b = some ns) :
    s.write b i n = some (s.put b (Function.update ns i n)) := by
  simp [ArrState.write, h, ArrState.put]

theorem arrRep_congr {mem mem' : Nat → Option (Fin 8 → N)} : ∀ (t : ArrTree) (b : Nat) (i : Fin 8), (∀ x, t.Has x → mem' x = mem x) →
    (∀ ns, mem b = some ns → ∃ ns', mem' b = some ns' ∧ ns' i = ns i) → t.Rep ops mem b i → t.Rep ops mem' b i
  | .leaf, b, i, _, hb, ⟨ns, h1, h2⟩ => by
    obtain ⟨ns', e, e'⟩ := hb ns h1
    exact ⟨ns', e, by rw [e']; exact h2⟩
  | .inner c ch, b, i, hx, hb, ⟨ns, h1, h2, h3, h4⟩ => by
    obtain ⟨ns', e, e'⟩ := hb ns h1
    refine ⟨ns', e, by rw [e']; exact h2, by rw [e']; exact h3, fun j => ?_⟩
    refine arrRep_congr (ch j) c j (fun x h => hx x (Or.inr ⟨j, h⟩)) ?_ (h4 j)
    intro ms hms
    exact ⟨ms, by rw [hx c (Or.inl rfl)]; exact hms, rfl⟩

theorem arrRep_mem {mem : Nat → Option (Fin 8 → N)} {t : ArrTree} {b : Nat} {i : Fin 8} (h : t.Rep ops mem b i) : ∃ ns, mem b = some ns := by
  cases t with
  | leaf => obtain ⟨ns, h, -⟩ := h; exact ⟨ns, h⟩
  | inner c ch => obtain ⟨ns, h, -⟩ := h; exact ⟨ns, h⟩

theorem arrCollapse_fold {c : Nat} {ch : Fin 8 → ArrTree}
    (ih : ∀ j s ns, (ch j).Rep ops s.mem c j → (ch j).Sep → ¬ (ch j).Has c → s.mem c = some ns →
      arrCollapse ops c j s = some ((s.clear (ch j).Has).put c (Function.update ns j (arrDone ops (ns j))))) :
    ∀ (l : List (Fin 8)) (s : ArrState N) (ns : Fin 8 → N), l.Nodup → s.mem c = some ns → (∀ j ∈ l, (ch j).Rep ops s.mem c j) →
      (∀ j ∈ l, (ch j).Sep ∧ ¬ (ch j).Has c) → (∀ i ∈ l, ∀ j ∈ l, i ≠ j → ∀ x, (ch i).Has x → ¬ (ch j).Has x) →
      l.foldlM (fun s j => arrCollapse ops c j s) s =
        some ((s.clear fun x => ∃ j ∈ l, (ch j).Has x).put c (fun j => if j ∈ l then arrDone ops (ns j) else ns j))
  | [], s, ns, _, h, _, _, _ => by
    simp only [List.foldlM_nil, List.not_mem_nil, false_and, exists_false, if_false]
    have : s = (s.clear fun _ => False).put c ns := by
      refine ArrState.ext' ?_ rfl rfl
      intro x
      simp only [ArrState.clear, ArrState.put, if_false, Function.update_apply]
      split_ifs with hx
      · subst hx; exact h
      · rfl
    conv_lhs => rw [this]
    rfl
  | j :: l, s, ns, hn, h, hr, hs, hd => by
    rw [List.nodup_cons] at hn
    have d := ih j s ns (hr j (by simp)) (hs j (by simp)).1 (hs j (by simp)).2 h
    rw [List.foldlM_cons, d, Option.bind_eq_bind, Option.bind_some]
    rw [arrCollapse_fold ih l _ (Function.update ns j (arrDone ops (ns j))) hn.2 (by simp [ArrState.put]) ?_ (fun k hk => hs k (by simp [hk]))
      (fun i hi k hk => hd i (by simp [hi]) k (by simp [hk]))]
    · congr 1
      refine ArrState.ext' ?_ rfl rfl
      intro x
      simp only [ArrState.clear, ArrState.put, Function.update_apply]
      by_cases hx : x = c
      · simp only [hx, if_true]
        congr 1
        funext k
        simp only [List.mem_cons]
        by_cases hk : k = j
        · subst hk; simp [hn.1]
        · simp [hk]
      · simp only [hx, if_false, List.mem_cons, exists_eq_or_imp]
        by_cases h1 : (ch j).Has x <;> by_cases h2 : ∃ k ∈ l, (ch k).Has x <;> simp [h1, h2]
    · intro k hk
      have hkj : k ≠ j := fun e => hn.1 (e ▸ hk)
      refine arrRep_congr (ch k) c k ?_ ?_ (hr k (by simp [hk]))
      · intro x hx
        have hxc : x ≠ c := fun e => (hs k (by simp [hk])).2 (e ▸ hx)
        have hxi : ¬ (ch j).Has x := hd k (by simp [hk]) j (by simp) hkj x hx
        simp [ArrState.put, ArrState.clear, Function.update_apply, hxc, hxi]
      · intro ms hms
        refine ⟨_, by simp only [ArrState.put, Function.update_self]; rfl, ?_⟩
        rw [h] at hms
        cases hms
        simp [Function.update_apply, hkj]

theorem arrCollapse_spec (law : ops.Lawful) : ∀ (t : ArrTree) (s : ArrState N) (b : Nat) (i : Fin 8) (ns : Fin 8 → N), t.Rep ops s.mem b i → t.Sep →
    ¬ t.Has b → s.mem b = some ns → arrCollapse ops b i s = some ((s.clear t.Has).put b (Function.update ns i (arrDone ops (ns i))))
  | .leaf, s, b, i, ns, ⟨ms, h1, h2⟩, _, _, hb => by
    rw [hb] at h1
    cases h1
    rw [arrCollapse]
    simp only [hb]
    have e : s = (s.clear ArrTree.leaf.Has).put b ns := by
      refine ArrState.ext' ?_ rfl rfl
      intro x
      simp only [ArrState.clear, ArrState.put, ArrTree.Has, Function.update_apply]
      by_cases hx : x = b
      · subst hx; simp [hb]
      · simp [hx]
    by_cases hg : ops.guarded = true
    · rw [if_pos (by simp [hg, h2])]
      have : arrDone ops (ns i) = ns i := by simp [arrDone, hg, h2]
      rw [this, Function.update_eq_self]
      exact congrArg some e
    · have hg : ops.guarded = false := by simpa using hg
      rw [if_neg (by simp [hg]), law.free_leaf hg _ h2, arrDelete]
      simp only [Option.bind_eq_bind, Option.bind_some]
      rw [write_put hb]
      have : arrDone ops (ns i) = ops.unlink (ns i) := by simp [arrDone, hg]
      rw [this]
      congr 1
      refine ArrState.ext' ?_ rfl rfl
      intro x
      simp [ArrState.clear, ArrState.put, ArrTree.Has]
  | .inner c ch, s, b, i, ns, ⟨ms, h1, h2, h3, h4⟩, hs, hnb, hb => by
    rw [hb] at h1
    cases h1
    obtain ⟨cs, hc⟩ := arrRep_mem (h4 0)
    rw [arrCollapse]
    simp only [hb]
    rw [if_neg (by simp [h2]), h3, arrDelete]
    simp only [hc]
    have hbc : b ≠ c := fun e => hnb (Or.inl e)
    rw [arrCollapse_fold (fun j s ns => arrCollapse_spec law (ch j) s c j ns) _ s cs (List.nodup_reverse.2 (List.nodup_finRange 8)) hc (fun j _ => h4 j) (fun j _ => hs.1 j)
      (fun i _ j _ => hs.2 i j)]
    simp only [Option.bind_eq_bind, Option.bind_some]
    have hb' : (ArrState.free (ArrState.put (s.clear fun x => ∃ j ∈ (List.finRange 8).reverse, (ch j).Has x) c
        (fun j => if j ∈ (List.finRange 8).reverse then arrDone ops (cs j) else cs j)) c).mem b = some ns := by
      have : ¬ ∃ j, (ch j).Has b := fun h => hnb (Or.inr h)
      simp only [ArrState.free, ArrState.put, ArrState.clear, Function.update_apply, hbc, if_false, List.mem_reverse, List.mem_finRange, true_and, this]
      exact hb
    rw [write_put hb']
    have : arrDone ops (ns i) = ops.unlink (ns i) := by simp [arrDone, h2]
    rw [this]
    congr 1
    refine ArrState.ext' ?_ rfl rfl
    intro x
    simp only [ArrState.free, ArrState.put, ArrState.clear, Function.update_apply, List.mem_reverse, List.mem_finRange, true_and, ArrTree.Has]
    by_cases hx : x = b
    · simp [hx]
    · by_cases hx' : x = c <;> simp [hx, hx']

/-! ### Building -/

/-- From state `s`, element `i` of block `b` was built to the tree `t` (perhaps incomplete). -/
structure ArrBuilt (ops : ArrOps N) (s : ArrState N) (b : Nat) (i : Fin 8) (t : ArrTree) (s' : ArrState N) : Prop where
  cell : ∀ ns, s.mem b = some ns → ∃ n, s'.mem b = some (Function.update ns i n)
  rep : t.Rep ops s'.mem b i
  sep : t.Sep
  fresh : ∀ x, t.Has x → s.next ≤ x ∧ x < s'.next
  frame : ∀ x, x ≠ b → ¬ t.Has x → s'.mem x = if x < s.next then s.mem x else none
  mono : s.next ≤ s'.next

theorem ArrBuilt.unused {s s' : ArrState N} {b : Nat} {i : Fin 8} {t : ArrTree} (h : ArrBuilt ops s b i t s') (hb : b < s.next) {x : Nat} (hx : s'.next ≤ x) :
    s'.mem x = none := by
  have hm := h.mono
  rw [h.frame x (by omega) (fun hh => by have := h.fresh x hh; omega), if_neg (by omega)]

theorem ArrBuilt.budget {s s' : ArrState N} {b : Nat} {i : Fin 8} {t : ArrTree} (h : ArrBuilt ops s b i t s') (m : Nat) :
    ArrBuilt ops s b i t { s' with budget := m } := ⟨h.cell, h.rep, h.sep, h.fresh, h.frame, h.mono⟩

theorem arrBuilt_child {s s1 s2 : ArrState N} {b c : Nat} {i j : Fin 8} {ch : Fin 8 → ArrTree} {t : ArrTree} (hb : b < s.next)
    (h1 : ArrBuilt ops s b i (.inner c ch) s1) (hj : ch j = .leaf) (h2 : ArrBuilt ops s1 c j t s2) :
    ArrBuilt ops s b i (.inner c (Function.update ch j t)) s2 := by
  obtain ⟨ns, hn, hl, hk, hr⟩ := h1.rep
  have hcn := h1.fresh c (Or.inl rfl)
  have m1 := h1.mono
  have m2 := h2.mono
  obtain ⟨cs, hcs⟩ := arrRep_mem (hr 0)
  obtain ⟨cn, hcs'⟩ := h2.cell cs hcs
  have htb : ¬ t.Has b := fun h => by have := h2.fresh b h; omega
  have htc : ¬ t.Has c := fun h => by have := h2.fresh c h; omega
  have htk : ∀ k x, (ch k).Has x → ¬ t.Has x := by
    intro k x hx ht
    have := h2.fresh x ht
    have := h1.fresh x (Or.inr ⟨k, hx⟩)
    omega
  have keep : ∀ x, x < s1.next → x ≠ c → ¬ t.Has x → s2.mem x = s1.mem x := by
    intro x hx hc ht
    rw [h2.frame x hc ht, if_pos hx]
  have kb : s2.mem b = s1.mem b := keep b (by omega) (by omega) htb
  constructor
  · intro ns hns
    rw [kb]
    exact h1.cell ns hns
  · refine ⟨ns, by rw [kb]; exact hn, hl, hk, ?_⟩
    intro k
    by_cases hkj : k = j
    · subst hkj; rw [Function.update_self]; exact h2.rep
    · rw [Function.update_of_ne hkj]
      refine arrRep_congr (ch k) c k ?_ ?_ (hr k)
      · intro x hx
        have := h1.fresh x (Or.inr ⟨k, hx⟩)
        exact keep x this.2 (fun e => (h1.sep.1 k).2 (e ▸ hx)) (htk k x hx)
      · intro ms hms
        rw [hcs] at hms
        cases hms
        exact ⟨_, hcs', by rw [Function.update_of_ne hkj]⟩
  · refine ⟨?_, ?_⟩
    · intro k
      by_cases hkj : k = j
      · subst hkj; rw [Function.update_self]; exact ⟨h2.sep, htc⟩
      · rw [Function.update_of_ne hkj]; exact h1.sep.1 k
    · intro k l hkl x hx hx'
      by_cases hk' : k = j
      · subst hk'
        rw [Function.update_self] at hx
        rw [Function.update_of_ne (Ne.symm hkl)] at hx'
        exact htk l x hx' hx
      · rw [Function.update_of_ne hk'] at hx
        by_cases hl' : l = j
        · subst hl'
          rw [Function.update_self] at hx'
          exact htk k x hx hx'
        · rw [Function.update_of_ne hl'] at hx'
          exact h1.sep.2 k l hkl x hx hx'
  · rintro x (h | ⟨k, h⟩)
    · subst h; omega
    · by_cases hkj : k = j
      · subst hkj
        rw [Function.update_self] at h
        have := h2.fresh x h
        omega
      · rw [Function.update_of_ne hkj] at h
        have := h1.fresh x (Or.inr ⟨k, h⟩)
        omega
  · intro x hxb hx
    have hxc : x ≠ c := fun e => hx (Or.inl e)
    have hxt : ¬ t.Has x := fun h => hx (Or.inr ⟨j, by rw [Function.update_self]; exact h⟩)
    rw [h2.frame x hxc hxt]
    have hxo : ¬ (ArrTree.inner c ch).Has x := by
      rintro (h | ⟨k, h⟩)
      · exact hxc h
      · by_cases hkj : k = j
        · subst hkj; rw [hj] at h; exact h
        · exact hx (Or.inr ⟨k, by rw [Function.update_of_ne hkj]; exact h⟩)
    rw [h1.frame x hxb hxo]
    split_ifs <;> first | rfl | omega
  · omega

theorem arrLeaf_spec (law : ops.Lawful) {s : ArrState N} {b : Nat} {i : Fin 8} {ns : Fin 8 → N} (m : Nat) (hn : s.mem b = some ns) (hl : ops.isLeaf (ns i) = true)
    (hu : ∀ x, s.next ≤ x → s.mem x = none) :
    (m ≤ s.budget → ∃ s', arrLeaf ops m b i s = .ok s' ∧ ArrBuilt ops s b i .leaf s' ∧ s.budget = s'.budget + m) ∧
    (s.budget < m → ∃ s', arrLeaf ops m b i s = .thrown s' ∧ ArrBuilt ops s b i .leaf s') := by
  have hB : ArrBuilt ops s b i .leaf (s.put b (Function.update ns i (ops.data (ns i)))) := by
    constructor
    · intro ms hms
      rw [hn] at hms; cases hms
      exact ⟨_, by simp only [ArrState.put, Function.update_self]; rfl⟩
    · exact ⟨_, by simp only [ArrState.put, Function.update_self]; rfl, by rw [Function.update_self, law.data_leaf]; exact hl⟩
    · trivial
    · intro x h; exact h.elim
    · intro x hx _
      simp only [ArrState.put, Function.update_of_ne hx]
      split_ifs with h
      · rfl
      · exact hu x (by omega)
    · exact le_refl _
  unfold arrLeaf arrWork
  simp only [hn, write_put hn]
  constructor
  · intro h
    rw [if_pos (show m ≤ (s.put b _).budget from h)]
    exact ⟨_, rfl, hB.budget _, by simp only [ArrState.put]; omega⟩
  · intro h
    rw [if_neg (show ¬ m ≤ (s.put b _).budget from by simp only [ArrState.put]; omega)]
    exact ⟨_, rfl, hB.budget _⟩

theorem arrSubdivide_spec (law : ops.Lawful) {s : ArrState N} {b : Nat} {i : Fin 8} {ns : Fin 8 → N} (hn : s.mem b = some ns) (hl : ops.isLeaf (ns i) = true)
    (hb : b < s.next) (hu : ∀ x, s.next ≤ x → s.mem x = none) (h0 : s.budget ≠ 0) :
    ∃ s', arrSubdivide ops b i s = .ok s' ∧ ArrBuilt ops s b i (.inner s.next fun _ => .leaf) s' ∧ s.budget = s'.budget + 1 := by
  unfold arrSubdivide
  have hne : b ≠ s.next := by omega
  have hb' : (⟨Function.update s.mem s.next (some fun _ => ops.new), s.next + 1, s.budget - 1⟩ : ArrState N).mem b = some ns := by
    simp only [Function.update_of_ne hne]; exact hn
  simp only [hn, hl, if_true, h0, if_false, write_put hb']
  refine ⟨_, rfl, ?_, by simp only [ArrState.put]; omega⟩
  constructor
  · intro ms hms
    rw [hn] at hms; cases hms
    exact ⟨_, by simp only [ArrState.put, Function.update_self]; rfl⟩
  · refine ⟨_, by simp only [ArrState.put, Function.update_self]; rfl, by rw [Function.update_self, law.link_inner], by rw [Function.update_self, law.link_kids], ?_⟩
    intro j
    refine ⟨_, by simp only [ArrState.put, Function.update_of_ne (Ne.symm hne), Function.update_self]; rfl, law.new_leaf⟩
  · exact ⟨fun _ => ⟨trivial, id⟩, fun _ _ _ _ h => h.elim⟩
  · rintro x (h | ⟨_, h⟩)
    · subst h; simp [ArrState.put]
    · exact h.elim
  · intro x hx hh
    have hx' : x ≠ s.next := fun e => hh (Or.inl e)
    simp only [ArrState.put, Function.update_of_ne hx, Function.update_of_ne hx']
    split_ifs with h
    · rfl
    · exact hu x (by omega)
  · simp [ArrState.put]

theorem arrBuildNode_spec (law : ops.Lawful) (plan : ArrPlan) : ∀ (k : Nat) (lo : IVec3) (b : Nat) (i : Fin 8) (s : ArrState N) (ns : Fin 8 → N),
    s.mem b = some ns → ops.isLeaf (ns i) = true → b < s.next → (∀ x, s.next ≤ x → s.mem x = none) →
    (arrNeed plan k lo ≤ s.budget → ∃ s' t, arrBuildNode ops plan k lo b i s = .ok s' ∧ ArrBuilt ops s b i t s' ∧ t.Shape plan k lo ∧ s.budget = s'.budget + arrNeed plan k lo) ∧
    (s.budget < arrNeed plan k lo → ∃ s' t, arrBuildNode ops plan k lo b i s = .thrown s' ∧ ArrBuilt ops s b i t s')
  | 0, lo, b, i, s, ns, hn, hl, hb, hu => by
    obtain ⟨h1, h2⟩ := arrLeaf_spec law (plan.leafAllocs lo 0) hn hl hu
    exact ⟨fun h => by obtain ⟨s', a, b, c⟩ := h1 h; exact ⟨s', _, a, b, rfl, c⟩, fun h => by obtain ⟨s', a, b⟩ := h2 h; exact ⟨s', _, a, b⟩⟩
  | k + 1, lo, b, i, s, ns, hn, hl, hb, hu => by
    rw [arrNeed, arrBuildNode]
    by_cases hsp : plan.split lo (k + 1) = true
    swap
    · simp only [hsp]
      obtain ⟨h1, h2⟩ := arrLeaf_spec law (plan.leafAllocs lo (k + 1)) hn hl hu
      exact ⟨fun h => by obtain ⟨s', a, b, c⟩ := h1 h; exact ⟨s', _, a, b, by rw [ArrTree.Shape, if_neg hsp], c⟩, fun h => by obtain ⟨s', a, b⟩ := h2 h; exact ⟨s', _, a, b⟩⟩
    simp only [hsp, if_true]
    by_cases h0 : s.budget = 0
    · refine ⟨fun h => by omega, fun _ => ⟨s, .leaf, ?_, ?_⟩⟩
      · unfold arrSubdivide
        simp [hn, hl, h0, ArrRes.andThen]
      · constructor
        · intro ms hms
          exact ⟨ms i, by rw [Function.update_eq_self]; exact hms⟩
        · exact ⟨ns, hn, hl⟩
        · trivial
        · intro x h; exact h.elim
        · intro x _ _
          split_ifs with h
          · rfl
          · exact hu x (by omega)
        · exact le_refl _
    obtain ⟨s1, e1, B1, c1⟩ := arrSubdivide_spec law hn hl hb hu h0
    rw [e1]
    simp only [ArrRes.andThen]
    have loop : ∀ (l : List (Fin 8)) (ch : Fin 8 → ArrTree) (s1 : ArrState N), l.Nodup → (∀ j ∈ l, ch j = .leaf) →
        (∀ j, j ∉ l → (ch j).Shape plan k (childCorner lo k j)) → ArrBuilt ops s b i (.inner s.next ch) s1 →
        ((l.map fun j => arrNeed plan k (childCorner lo k j)).sum ≤ s1.budget → ∃ s' t,
          arrFor (fun j s => arrChild ops (fun c s => arrBuildNode ops plan k (childCorner lo k j) c j s) b i s) l s1 = .ok s' ∧ ArrBuilt ops s b i t s' ∧
            (∃ c ch, t = .inner c ch ∧ ∀ j, (ch j).Shape plan k (childCorner lo k j)) ∧ s1.budget = s'.budget + (l.map fun j => arrNeed plan k (childCorner lo k j)).sum) ∧
        (s1.budget < (l.map fun j => arrNeed plan k (childCorner lo k j)).sum → ∃ s' t,
          arrFor (fun j s => arrChild ops (fun c s => arrBuildNode ops plan k (childCorner lo k j) c j s) b i s) l s1 = .thrown s' ∧ ArrBuilt ops s b i t s') := by
      intro l
      induction l with
      | nil =>
        intro ch s1 _ _ hsh hB
        exact ⟨fun _ => ⟨s1, _, rfl, hB, ⟨_, ch, rfl, fun j => hsh j (by simp)⟩, by simp⟩, fun h => by simp at h⟩
      | cons j l ih =>
        intro ch s1 hnd hlf hsh hB
        rw [List.nodup_cons] at hnd
        have hu1 : ∀ x, s1.next ≤ x → s1.mem x = none := fun x hx => hB.unused hb hx
        have hc1 := hB.fresh s.next (Or.inl rfl)
        obtain ⟨ms, q1, q2, q3, q4⟩ := hB.rep
        have hj := q4 j
        rw [hlf j (by simp)] at hj
        obtain ⟨cs, r1, r2⟩ := hj
        obtain ⟨g1, g2⟩ := arrBuildNode_spec law plan k (childCorner lo k j) s.next j s1 cs r1 r2 hc1.2 hu1
        have hch : arrChild ops (fun c s => arrBuildNode ops plan k (childCorner lo k j) c j s) b i s1 = arrBuildNode ops plan k (childCorner lo k j) s.next j s1 := by
          unfold arrChild
          simp only [q1, q3]
        simp only [arrFor, hch, List.map_cons, List.sum_cons]
        by_cases hbud : arrNeed plan k (childCorner lo k j) ≤ s1.budget
        · obtain ⟨s2, t, e, hB2, ht, hbe⟩ := g1 hbud
          rw [e]
          simp only [ArrRes.andThen]
          have hB' := arrBuilt_child hb hB (hlf j (by simp)) hB2
          obtain ⟨i1, i2⟩ := ih (Function.update ch j t) s2 hnd.2 (fun k hk => by
            have : k ≠ j := fun e => hnd.1 (e ▸ hk)
            rw [Function.update_of_ne this]; exact hlf k (by simp [hk])) (fun k hk => by
            by_cases hkj : k = j
            · subst hkj; rw [Function.update_self]; exact ht
            · rw [Function.update_of_ne hkj]; exact hsh k (by simp [hkj, hk])) hB'
          refine ⟨fun h => ?_, fun h => i2 (by omega)⟩
          obtain ⟨s', t', a1, a2, a4, a3⟩ := i1 (by omega)
          exact ⟨s', t', a1, a2, a4, by omega⟩
        · obtain ⟨s2, t, e, hB2⟩ := g2 (by omega)
          rw [e]
          simp only [ArrRes.andThen]
          exact ⟨fun h => by omega, fun _ => ⟨s2, _, rfl, arrBuilt_child hb hB (hlf j (by simp)) hB2⟩⟩
    obtain ⟨l1, l2⟩ := loop (List.finRange 8) _ s1 (List.nodup_finRange 8) (fun _ _ => rfl) (fun j hj => absurd (List.mem_finRange j) hj) B1
    refine ⟨fun h => ?_, fun h => l2 (by omega)⟩
    obtain ⟨s', t, a1, a2, a4, a3⟩ := l1 (by omega)
    exact ⟨s', t, a1, a2, by rw [ArrTree.Shape, if_pos hsp]; exact a4, by omega⟩

/-! ### The property -/

/-- A failed or successful build from any octree, for both classes. -/
theorem arr_build (law : ops.Lawful) (plan : ArrPlan) (level : Nat) (lo : IVec3) (r : Nat) (s : ArrState N) (t : ArrTree) (h : s.Octree ops r t) :
    (arrNeed plan level lo + plan.final ≤ s.budget → ∃ s' t', arrBuild ops plan level lo r s = .ok s' ∧ s'.Octree ops r t' ∧ t'.Shape plan level lo ∧
      ∀ x, x ≠ r → ¬ t'.Has x → s'.mem x = if t.Has x then none else s.mem x) ∧
    (s.budget < arrNeed plan level lo + plan.final → ∃ s', arrBuild ops plan level lo r s = .thrown s' ∧ s'.Octree ops r .leaf ∧
      ∀ x, x ≠ r → s'.mem x = if t.Has x then none else s.mem x) := by
  obtain ⟨ns, hns⟩ := arrRep_mem h.rep
  have c0 := arrCollapse_spec law t s r 0 ns h.rep h.sep h.root.1 hns
  have hdone : ops.isLeaf (arrDone ops (ns 0)) = true := by
    unfold arrDone
    split_ifs with hh
    · simp only [Bool.and_eq_true] at hh; exact hh.2
    · exact law.unlink_leaf _
  generalize hs1 : (s.clear t.Has).put r (Function.update ns 0 (arrDone ops (ns 0))) = s1 at c0
  have e1 : s1.mem r = some (Function.update ns 0 (arrDone ops (ns 0))) := by rw [← hs1]; simp [ArrState.put]
  have e2 : s1.next = s.next := by rw [← hs1]; rfl
  have e3 : s1.budget = s.budget := by rw [← hs1]; rfl
  have e4 : ∀ x, x ≠ r → s1.mem x = if t.Has x then none else s.mem x := by
    intro x hx; rw [← hs1]; simp [ArrState.put, ArrState.clear, Function.update_of_ne hx]
  have hu : ∀ x, s1.next ≤ x → s1.mem x = none := by
    intro x hx
    rw [e4 x (by have := h.root.2; omega), h.unused x (by omega)]
    simp
  have hb1 : r < s1.next := by rw [e2]; exact h.root.2
  obtain ⟨g1, g2⟩ := arrBuildNode_spec law plan level lo r 0 s1 _ e1 (by rw [Function.update_self]; exact hdone) hb1 hu
  -- memory outside the new tree
  have frame : ∀ t' s', ArrBuilt ops s1 r 0 t' s' → ∀ x, x ≠ r → ¬ t'.Has x → s'.mem x = if t.Has x then none else s.mem x := by
    intro t' s' hB x hx hh
    rw [hB.frame x hx hh, ← e4 x hx]
    split_ifs with hlt
    · rfl
    · exact (hu x (by omega)).symm
  have octree : ∀ t' s', ArrBuilt ops s1 r 0 t' s' → s'.Octree ops r t' := by
    intro t' s' hB
    refine ⟨hB.rep, hB.sep, ⟨fun hh => ?_, by have := hB.mono; omega⟩, fun x hx => hB.unused hb1 hx⟩
    have := hB.fresh r hh
    omega
  -- clean-up after an exception
  have clean : ∀ t' s', ArrBuilt ops s1 r 0 t' s' → ∃ s'', arrCollapse ops r 0 s' = some s'' ∧ s''.Octree ops r .leaf ∧
      ∀ x, x ≠ r → s''.mem x = if t.Has x then none else s.mem x := by
    intro t' s' hB
    have ho := octree t' s' hB
    obtain ⟨ms, hms⟩ := arrRep_mem ho.rep
    have cc := arrCollapse_spec law t' s' r 0 ms ho.rep ho.sep ho.root.1 hms
    have hd : ops.isLeaf (arrDone ops (ms 0)) = true := by
      unfold arrDone
      split_ifs with hh
      · simp only [Bool.and_eq_true] at hh; exact hh.2
      · exact law.unlink_leaf _
    refine ⟨_, cc, ⟨⟨_, by simp only [ArrState.put, Function.update_self]; rfl, by rw [Function.update_self]; exact hd⟩, trivial, ⟨id, ho.root.2⟩, ?_⟩, ?_⟩
    · intro x hx
      have hx' : s'.next ≤ x := hx
      have : x ≠ r := by have := ho.root.2; omega
      simp only [ArrState.put, ArrState.clear, Function.update_of_ne this]
      split_ifs
      · rfl
      · exact ho.unused x hx'
    · intro x hx
      simp only [ArrState.put, ArrState.clear, Function.update_of_ne hx]
      split_ifs with h1 h2 h2
      · rfl
      · have h3 := hB.fresh x h1
        rw [h.unused x (by omega)]
      · rw [frame t' s' hB x hx h1, if_pos h2]
      · rw [frame t' s' hB x hx h1, if_neg h2]
  unfold arrBuild
  simp only [c0]
  by_cases hbud : arrNeed plan level lo ≤ s1.budget
  · obtain ⟨s2, t', a1, a2, a4, a3⟩ := g1 hbud
    simp only [a1, ArrRes.andThen, arrWork]
    constructor
    · intro hb
      rw [if_pos (by omega)]
      exact ⟨_, t', rfl, octree t' _ (a2.budget _), a4, frame t' _ (a2.budget _)⟩
    · intro hb
      rw [if_neg (by omega)]
      obtain ⟨s'', b1, b2, b3⟩ := clean t' _ (a2.budget 0)
      simp only [b1]
      exact ⟨s'', rfl, b2, b3⟩
  · obtain ⟨s2, t', a1, a2⟩ := g2 (by omega)
    simp only [a1, ArrRes.andThen]
    refine ⟨fun hb => by omega, fun _ => ?_⟩
    obtain ⟨s'', b1, b2, b3⟩ := clean t' s2 a2
    simp only [b1]
    exact ⟨s'', rfl, b2, b3⟩

/-- **C67** (MDC).  From any octree, `build` never has undefined behaviour.  If enough allocations succeed, it ends normally, the
octree is subdivided as planned and owns exactly the blocks of its tree, the old blocks are freed and nothing else changes.  Otherwise, wherever the
allocation fails, the exception is passed on, the root is a leaf, all blocks of the old and of the unfinished tree are freed and
nothing else changes. -/
theorem C67_mdc (plan : ArrPlan) (level : Nat) (lo : IVec3) (r : Nat) (s : ArrState MdcRaw) (t : ArrTree) (h : s.Octree mdcOps r t) :
    (arrNeed plan level lo + plan.final ≤ s.budget → ∃ s' t', arrBuild mdcOps plan level lo r s = .ok s' ∧ s'.Octree mdcOps r t' ∧ t'.Shape plan level lo ∧
      ∀ x, x ≠ r → ¬ t'.Has x → s'.mem x = if t.Has x then none else s.mem x) ∧
    (s.budget < arrNeed plan level lo + plan.final → ∃ s', arrBuild mdcOps plan level lo r s = .thrown s' ∧ s'.Octree mdcOps r .leaf ∧
      ∀ x, x ≠ r → s'.mem x = if t.Has x then none else s.mem x) :=
  arr_build mdcOps_lawful plan level lo r s t h

/-- **C67** (DMC).  The same for `DMC_Octree`. -/
theorem C67_dmc (plan : ArrPlan) (level : Nat) (lo : IVec3) (r : Nat) (s : ArrState RawPtr) (t : ArrTree) (h : s.Octree dmcOps r t) :
    (arrNeed plan level lo + plan.final ≤ s.budget → ∃ s' t', arrBuild dmcOps plan level lo r s = .ok s' ∧ s'.Octree dmcOps r t' ∧ t'.Shape plan level lo ∧
      ∀ x, x ≠ r → ¬ t'.Has x → s'.mem x = if t.Has x then none else s.mem x) ∧
    (s.budget < arrNeed plan level lo + plan.final → ∃ s', arrBuild dmcOps plan level lo r s = .thrown s' ∧ s'.Octree dmcOps r .leaf ∧
      ∀ x, x ≠ r → s'.mem x = if t.Has x then none else s.mem x) :=
  arr_build dmcOps_lawful plan level lo r s t h

/-- **C67** (destruction, MDC).  The destructor of the root frees every block of the tree once and nothing else. -/
theorem C67_mdc_destroy (r : Nat) (s : ArrState MdcRaw) (t : ArrTree) (h : s.Octree mdcOps r t) :
    ∃ s', arrCollapse mdcOps r 0 s = some s' ∧ ∀ x, x ≠ r → s'.mem x = if t.Has x then none else s.mem x := by
  obtain ⟨ns, hns⟩ := arrRep_mem h.rep
  refine ⟨_, arrCollapse_spec mdcOps_lawful t s r 0 ns h.rep h.sep h.root.1 hns, fun x hx => ?_⟩
  simp [ArrState.put, ArrState.clear, Function.update_of_ne hx]

/-- **C67** (destruction, DMC). -/
theorem C67_dmc_destroy (r : Nat) (s : ArrState RawPtr) (t : ArrTree) (h : s.Octree dmcOps r t) :
    ∃ s', arrCollapse dmcOps r 0 s = some s' ∧ ∀ x, x ≠ r → s'.mem x = if t.Has x then none else s.mem x := by
  obtain ⟨ns, hns⟩ := arrRep_mem h.rep
  refine ⟨_, arrCollapse_spec dmcOps_lawful t s r 0 ns h.rep h.sep h.root.1 hns, fun x hx => ?_⟩
  simp [ArrState.put, ArrState.clear, Function.update_of_ne hx]

/-- A new octree at block 0. -/
def newArr (ops : ArrOps N) (m : Nat) : ArrState N := ⟨fun x => if x = 0 then some fun _ => ops.new else none, 1, m⟩

theorem newArr_octree (law : ops.Lawful) (m : Nat) : (newArr ops m).Octree ops 0 .leaf :=
  ⟨⟨_, rfl, law.new_leaf⟩, trivial, ⟨id, Nat.zero_lt_one⟩, fun x hx => by
    have : x ≠ 0 := by simp only [newArr] at hx; omega
    simp [newArr, this]⟩

/-- A plan that splits everything and allocates one vector in every leaf. -/
def demoArrPlan : ArrPlan := ⟨fun _ _ => true, fun _ _ => 1, 3⟩

/-- A new octree of size 2 needs 12 allocations; it is built with 12 and fails with 11; the finished one can be built again. -/
example : ∃ s' t', arrBuild mdcOps demoArrPlan 1 ⟨-1, -1, -1⟩ 0 (newArr mdcOps 12) = .ok s' ∧ s'.Octree mdcOps 0 t' := by
  obtain ⟨s', t', h1, h2, -⟩ := (C67_mdc demoArrPlan 1 ⟨-1, -1, -1⟩ 0 _ _ (newArr_octree mdcOps_lawful 12)).1 (by decide)
  exact ⟨s', t', h1, h2⟩

example : ∃ s', arrBuild mdcOps demoArrPlan 1 ⟨-1, -1, -1⟩ 0 (newArr mdcOps 11) = .thrown s' ∧ s'.Octree mdcOps 0 .leaf := by
  obtain ⟨s', h1, h2, -⟩ := (C67_mdc demoArrPlan 1 ⟨-1, -1, -1⟩ 0 _ _ (newArr_octree mdcOps_lawful 11)).2 (by decide)
  exact ⟨s', h1, h2⟩

example : ∃ s', arrBuild dmcOps demoArrPlan 1 ⟨-1, -1, -1⟩ 0 (newArr dmcOps 5) = .thrown s' ∧ s'.Octree dmcOps 0 .leaf := by
  obtain ⟨s', h1, h2, -⟩ := (C67_dmc demoArrPlan 1 ⟨-1, -1, -1⟩ 0 _ _ (newArr_octree dmcOps_lawful 5)).2 (by decide)
  exact ⟨s', h1, h2⟩

end Isomesh
