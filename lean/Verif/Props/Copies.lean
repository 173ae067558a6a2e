import Verif.Model.Copies
import Verif.Props.DcNodeMem
import Verif.Props.ArrNodeMem

/-! Property C79: copies of octree objects. -/

namespace Isomesh

open scoped Classical

/-! ### DC octree -/

/-- The tree with its root moved to another address. -/
def RawTree.reroot (r : Nat) : RawTree → RawTree
  | .null => .null
  | .leaf _ => .leaf r
  | .inner _ ch => .inner r ch

theorem rep_lt {mem : Nat → Option RawNode} {m : Nat} (hu : ∀ x, m ≤ x → mem x = none) :
    ∀ (t : RawTree) (p : RawPtr), t.Rep mem p → ∀ x, t.Has x → x < m
  | .null, _, _, _, h => h.elim
  | .leaf a, p, ⟨_, n, h2, _⟩, x, h => by
    obtain rfl : x = a := h
    by_contra hc
    rw [hu x (by omega)] at h2
    simp at h2
  | .inner a ch, p, ⟨_, n, h2, _, h4⟩, x, h => by
    rcases h with rfl | ⟨i, hi⟩
    · by_contra hc
      rw [hu x (by omega)] at h2
      simp at h2
    · exact rep_lt hu (ch i) _ (h4 i) x hi

/-- Copying gives a second octree object; the first one is still as it was. -/
theorem rawCopy_spec {r : Nat} {s : RawState} {t : RawTree} (h : s.Octree r t) :
    ∃ s1, rawCopy r s = some s1 ∧ s1.Octree r t ∧ s1.Octree s.next (t.reroot s.next) ∧ s1.mem s.next = s.mem r ∧
      ∀ x, x ≠ s.next → s1.mem x = s.mem x := by
  obtain ⟨n, hn⟩ := octree_cell h
  have hlt := rep_lt h.unused t _ h.rep
  have hne : ∀ x, t.Has x → x ≠ s.next := fun x hx => Nat.ne_of_lt (hlt x hx)
  have hsame : ∀ x, x ≠ s.next → Function.update s.mem s.next (some n) x = s.mem x := fun x hx => Function.update_of_ne hx _ _
  have hunused : ∀ x, s.next + 1 ≤ x → Function.update s.mem s.next (some n) x = none := by
    intro x hx
    rw [hsame x (by omega)]
    exact h.unused x (by omega)
  unfold rawCopy
  simp only [hn]
  refine ⟨_, rfl, ⟨rep_congr t _ (fun x hx => hsame x (hne x hx)) h.rep, h.sep, Nat.lt_succ_of_lt h.root, hunused⟩, ?_,
    Function.update_self _ _ _, hsame⟩
  refine ⟨?_, ?_, Nat.lt_succ_self _, hunused⟩
  · cases t with
    | null => exact absurd h.rep (by simp [RawTree.Rep])
    | leaf a =>
      obtain ⟨h1, m, h2, h3⟩ := h.rep
      cases h1
      rw [hn] at h2
      cases h2
      exact ⟨rfl, n, Function.update_self _ _ _, h3⟩
    | inner a ch =>
      obtain ⟨h1, m, h2, h3, h4⟩ := h.rep
      cases h1
      rw [hn] at h2
      cases h2
      exact ⟨rfl, n, Function.update_self _ _ _, h3, fun i =>
        rep_congr (ch i) _ (fun x hx => hsame x (hne x (Or.inr ⟨i, hx⟩))) (h4 i)⟩
  · cases t with
    | null => trivial
    | leaf a => trivial
    | inner a ch =>
      obtain ⟨s1, s2⟩ := h.sep
      exact ⟨fun i => ⟨(s1 i).1, fun hx => hne _ (Or.inr ⟨i, hx⟩) rfl⟩, s2⟩

theorem delete_dangling {r c : Nat} {s : RawState} {n : RawNode} (hn : s.mem r = some n) (hl : n.isLeaf = false)
    (hp : n.ptr 0 = .node c) (hc : c ≠ r) (hf : s.mem c = none) : rawDelete (.node r) s = none := by
  rw [rawDelete]
  simp only [hn, hl, Bool.false_eq_true, if_false, Option.bind_eq_bind]
  rw [rawCollapse]
  simp only [hn]
  have : (List.finRange 8 : List (Fin 8)) = 0 :: (List.finRange 8).tail := rfl
  rw [this, List.foldlM_cons]
  have h1 : ((s.put r { n with isLeaf := true }).mem r) = some { n with isLeaf := true } := by
    simp [RawState.put]
  have h2 : ((s.put r { n with isLeaf := true }).mem c) = none := by
    simp [RawState.put, Function.update_of_ne hc, hf]
  have h3 : rawDelete (.node c) (s.put r { n with isLeaf := true }) = none := by
    rw [rawDelete]
    simp only [h2]
  simp only [h1, Option.bind_eq_bind, Option.bind_some, hp, h3, Option.bind_none]

/-- One of two octree objects that share their nodes is destroyed: the nodes are gone, and destroying the other one is undefined. -/
theorem shared_delete {s : RawState} {a b : Nat} {ch : Fin 8 → RawTree} (ha : s.Octree a (.inner a ch)) (hb : s.Octree b (.inner b ch))
    (hab : a ≠ b) (hf : ∀ i, (ch i).Full) : ∃ s2, rawDelete (.node a) s = some s2 ∧ (∀ i x, (ch i).Has x → s2.mem x = none) ∧
      rawDelete (.node b) s2 = none := by
  obtain ⟨s2, h1, h2⟩ := C66_destroy a s _ ha
  refine ⟨s2, h1, fun i x hx => (h2 x).trans (if_pos (show (RawTree.inner a ch).Has x from Or.inr ⟨i, hx⟩)), ?_⟩
  obtain ⟨-, n, hn, hl, hr⟩ := hb.rep
  have hroot : ∀ (t : RawTree) (p : RawPtr), t.Full → t.Rep s.mem p → ∃ c, p = .node c ∧ t.Has c := by
    intro t p hfull hrep
    cases t with
    | null => exact hfull.elim
    | leaf c => exact ⟨c, hrep.1, rfl⟩
    | inner c ch => exact ⟨c, hrep.1, Or.inl rfl⟩
  obtain ⟨c, hc, hhas⟩ := hroot (ch 0) _ (hf 0) (hr 0)
  have hcb : c ≠ b := fun e => (hb.sep.1 0).2 (e ▸ hhas)
  refine delete_dangling (c := c) ?_ hl hc hcb ?_
  · rw [h2 b, if_neg, hn]
    rintro (e | ⟨i, hi⟩)
    · exact hab e.symm
    · exact (hb.sep.1 i).2 hi
  · exact (h2 c).trans (if_pos (show (RawTree.inner a ch).Has c from Or.inr ⟨0, hhas⟩))

/-- **C79** (DC octree).  Copying an octree object always succeeds and the copy shares all nodes below the root with the original, both
being intact octrees as long as neither is changed.  If the root is subdivided, then destroying one of the two frees these nodes and
destroying the other one afterwards is undefined behaviour, in either order. -/
theorem C79_dc {r : Nat} {s : RawState} {ch : Fin 8 → RawTree} (h : s.Octree r (.inner r ch)) (hf : ∀ i, (ch i).Full) :
    ∃ s1, rawCopy r s = some s1 ∧ s1.Octree r (.inner r ch) ∧ s1.Octree s.next (.inner s.next ch) ∧
      (∃ s2, rawDelete (.node s.next) s1 = some s2 ∧ (∀ i x, (ch i).Has x → s2.mem x = none) ∧ rawDelete (.node r) s2 = none) ∧
      (∃ s2, rawDelete (.node r) s1 = some s2 ∧ (∀ i x, (ch i).Has x → s2.mem x = none) ∧ rawDelete (.node s.next) s2 = none) := by
  obtain ⟨s1, h1, h2, h3, -⟩ := rawCopy_spec h
  have hne : r ≠ s.next := Nat.ne_of_lt h.root
  exact ⟨s1, h1, h2, h3, shared_delete h3 h2 hne.symm hf, shared_delete h2 h3 hne hf⟩

/-- **C79** (DC octree, one leaf).  Copies of an octree that consists of its root only can be destroyed in any order. -/
theorem C79_dc_leaf {r : Nat} {s : RawState} (h : s.Octree r (.leaf r)) :
    ∃ s1, rawCopy r s = some s1 ∧ s1.Octree r (.leaf r) ∧ s1.Octree s.next (.leaf s.next) ∧
      ∀ a b, (a = r ∧ b = s.next) ∨ (a = s.next ∧ b = r) → ∃ s2 s3, rawDelete (.node a) s1 = some s2 ∧ rawDelete (.node b) s2 = some s3 ∧
        ∀ x, s3.mem x = if x = r ∨ x = s.next then none else s.mem x := by
  obtain ⟨s1, h1, h2, h3, -, h5⟩ := rawCopy_spec h
  have hne : r ≠ s.next := Nat.ne_of_lt h.root
  refine ⟨s1, h1, h2, h3, fun a b hab => ?_⟩
  have key : ∀ a b, a ≠ b → s1.Octree a (.leaf a) → s1.Octree b (.leaf b) → ∃ s2 s3, rawDelete (.node a) s1 = some s2 ∧ rawDelete (.node b) s2 = some s3 ∧
      ∀ x, s3.mem x = if x = a ∨ x = b then none else s1.mem x := by
    intro a b hab ha hb
    obtain ⟨s2, e1, e2⟩ := C66_destroy a s1 _ ha
    have hb2 : (RawTree.leaf b).Rep s2.mem (.node b) := by
      refine rep_congr _ _ (fun x hx => ?_) hb.rep
      obtain rfl : x = b := hx
      exact (e2 x).trans (if_neg (show ¬ (RawTree.leaf a).Has x from fun e : x = a => hab e.symm))
    refine ⟨s2, _, e1, rawDelete_spec (.leaf b) s2 _ hb2 trivial, fun x => ?_⟩
    have : ((s2.clear (RawTree.leaf b).Has).mem x) = if x = b then none else s2.mem x := by
      by_cases hx : x = b <;> simp [RawState.clear, RawTree.Has, hx]
    rw [this, e2 x]
    simp only [RawTree.Has]
    by_cases hx : x = b
    · simp [hx]
    · by_cases hx' : x = a <;> simp [hx, hx']
  rcases hab with ⟨rfl, rfl⟩ | ⟨rfl, rfl⟩
  · obtain ⟨s2, s3, e1, e2, e3⟩ := key _ _ hne h2 h3
    refine ⟨s2, s3, e1, e2, fun x => ?_⟩
    rw [e3]
    split_ifs with hx
    · rfl
    · exact h5 x fun e => hx (Or.inr e)
  · obtain ⟨s2, s3, e1, e2, e3⟩ := key _ _ hne.symm h3 h2
    refine ⟨s2, s3, e1, e2, fun x => ?_⟩
    rw [e3]
    simp only [or_comm (a := x = s.next)]
    split_ifs with hx
    · rfl
    · exact h5 x fun e => hx (Or.inr e)

/-! ### MDC and DMC octrees -/

section
variable {N : Type} {ops : ArrOps N}

theorem arrRep_lt {mem : Nat → Option (Fin 8 → N)} {m : Nat} (hu : ∀ x, m ≤ x → mem x = none) :
    ∀ (t : ArrTree) (b : Nat) (i : Fin 8), t.Rep ops mem b i → ∀ x, t.Has x → x < m
  | .leaf, _, _, _, _, h => h.elim
  | .inner c ch, b, i, ⟨ns, h1, h2, h3, h4⟩, x, h => by
    rcases h with rfl | ⟨j, hj⟩
    · by_contra hc
      have := h4 0
      cases hch : ch 0 with
      | leaf => rw [hch] at this; obtain ⟨ns, e, -⟩ := this; rw [hu x (by omega)] at e; simp at e
      | inner c' ch' => rw [hch] at this; obtain ⟨ns, e, -⟩ := this; rw [hu x (by omega)] at e; simp at e
    · exact arrRep_lt hu (ch j) c j (h4 j) x hj

theorem arrRep_congr' {mem mem' : Nat → Option (Fin 8 → N)} : ∀ (t : ArrTree) (b b' : Nat) (i i' : Fin 8) (ns ns' : Fin 8 → N),
    mem b = some ns → mem' b' = some ns' → ns' i' = ns i → (∀ x, t.Has x → mem' x = mem x) → t.Rep ops mem b i → t.Rep ops mem' b' i'
  | .leaf, b, b', i, i', ns, ns', h1, h2, h3, _, ⟨ns1, e1, e2⟩ => by
    rw [h1] at e1
    cases e1
    exact ⟨ns', h2, by rw [h3]; exact e2⟩
  | .inner c ch, b, b', i, i', ns, ns', h1, h2, h3, hx, ⟨ns1, e1, e2, e3, e4⟩ => by
    rw [h1] at e1
    cases e1
    obtain ⟨ms, hms⟩ := arrRep_mem (e4 0)
    refine ⟨ns', h2, by rw [h3]; exact e2, by rw [h3]; exact e3, fun j => ?_⟩
    exact arrRep_congr' (ch j) c c j j ms ms hms (by rw [hx c (Or.inl rfl)]; exact hms) rfl (fun x hh => hx x (Or.inr ⟨j, hh⟩)) (e4 j)

theorem arrCopy_spec {r : Nat} {s : ArrState N} {t : ArrTree} (h : s.Octree ops r t) :
    ∃ s1, arrCopy r s = some s1 ∧ s1.Octree ops r t ∧ s1.Octree ops s.next t ∧ ∀ x, x ≠ s.next → s1.mem x = s.mem x := by
  obtain ⟨ns, hns⟩ := arrRep_mem h.rep
  have hlt := arrRep_lt h.unused t _ _ h.rep
  have hsame : ∀ x, x ≠ s.next → Function.update s.mem s.next (some fun _ => ns 0) x = s.mem x := fun x hx => Function.update_of_ne hx _ _
  have hunused : ∀ x, s.next + 1 ≤ x → Function.update s.mem s.next (some fun _ => ns 0) x = none := by
    intro x hx
    rw [hsame x (by omega)]
    exact h.unused x (by omega)
  have hr : r ≠ s.next := Nat.ne_of_lt h.root.2
  unfold arrCopy
  simp only [hns]
  refine ⟨_, rfl, ⟨?_, h.sep, ⟨h.root.1, Nat.lt_succ_of_lt h.root.2⟩, hunused⟩,
    ⟨?_, h.sep, ⟨fun hx => Nat.lt_irrefl _ (hlt _ hx), Nat.lt_succ_self _⟩, hunused⟩, hsame⟩
  · exact arrRep_congr' t r r 0 0 ns ns hns ((hsame r hr).trans hns) rfl (fun x hx => hsame x (Nat.ne_of_lt (hlt x hx))) h.rep
  · exact arrRep_congr' t r s.next 0 0 ns (fun _ => ns 0) hns (Function.update_self _ _ _) rfl
      (fun x hx => hsame x (Nat.ne_of_lt (hlt x hx))) h.rep

theorem arr_destroy (law : ops.Lawful) {s : ArrState N} {r : Nat} {t : ArrTree} (h : s.Octree ops r t) :
    ∃ s', arrCollapse ops r 0 s = some s' ∧ ∀ x, x ≠ r → s'.mem x = if t.Has x then none else s.mem x := by
  obtain ⟨ns, hns⟩ := arrRep_mem h.rep
  refine ⟨_, arrCollapse_spec law t s r 0 ns h.rep h.sep h.root.1 hns, fun x hx => ?_⟩
  simp [ArrState.put, ArrState.clear, Function.update_of_ne hx]

theorem arr_shared (law : ops.Lawful) {s : ArrState N} {a b c : Nat} {ch : Fin 8 → ArrTree} (ha : s.Octree ops a (.inner c ch))
    (hb : s.Octree ops b (.inner c ch)) (hab : a ≠ b) : ∃ s2, arrCollapse ops a 0 s = some s2 ∧
      (∀ x, (ArrTree.inner c ch).Has x → s2.mem x = none) ∧ arrCollapse ops b 0 s2 = none := by
  obtain ⟨s2, h1, h2⟩ := arr_destroy law ha
  have hgone : ∀ x, (ArrTree.inner c ch).Has x → s2.mem x = none := fun x hx => by
    rw [h2 x (fun e => ha.root.1 (e ▸ hx)), if_pos hx]
  refine ⟨s2, h1, hgone, ?_⟩
  obtain ⟨ns, e1, e2, e3, -⟩ := hb.rep
  have e4 : s2.mem b = some ns := by rw [h2 b hab.symm, if_neg hb.root.1, e1]
  have e5 : s2.mem c = none := hgone c (Or.inl rfl)
  rw [arrCollapse]
  simp only [e4, e2, Bool.and_false, Bool.false_eq_true, if_false, Option.bind_eq_bind, e3]
  have : arrDelete ops (.node c) s2 = none := by
    rw [arrDelete]
    simp only [e5]
  rw [this]
  rfl

theorem arr_copy_inner (law : ops.Lawful) {r c : Nat} {s : ArrState N} {ch : Fin 8 → ArrTree} (h : s.Octree ops r (.inner c ch)) :
    ∃ s1, arrCopy r s = some s1 ∧ s1.Octree ops r (.inner c ch) ∧ s1.Octree ops s.next (.inner c ch) ∧
      ∀ a b, (a = r ∧ b = s.next) ∨ (a = s.next ∧ b = r) → ∃ s2, arrCollapse ops a 0 s1 = some s2 ∧
        (∀ x, (ArrTree.inner c ch).Has x → s2.mem x = none) ∧ arrCollapse ops b 0 s2 = none := by
  obtain ⟨s1, h1, h2, h3, -⟩ := arrCopy_spec h
  have hne : r ≠ s.next := Nat.ne_of_lt h.root.2
  refine ⟨s1, h1, h2, h3, fun a b hab => ?_⟩
  rcases hab with ⟨rfl, rfl⟩ | ⟨rfl, rfl⟩
  · exact arr_shared law h2 h3 hne
  · exact arr_shared law h3 h2 hne.symm

theorem arr_copy_leaf (law : ops.Lawful) {r : Nat} {s : ArrState N} (h : s.Octree ops r .leaf) :
    ∃ s1, arrCopy r s = some s1 ∧ s1.Octree ops r .leaf ∧ s1.Octree ops s.next .leaf ∧
      ∀ a b, (a = r ∧ b = s.next) ∨ (a = s.next ∧ b = r) → ∃ s2 s3, arrCollapse ops a 0 s1 = some s2 ∧ arrCollapse ops b 0 s2 = some s3 ∧
        ∀ x, x ≠ r → x ≠ s.next → s3.mem x = s.mem x := by
  obtain ⟨s1, h1, h2, h3, h4⟩ := arrCopy_spec h
  have hne : r ≠ s.next := Nat.ne_of_lt h.root.2
  refine ⟨s1, h1, h2, h3, fun a b hab => ?_⟩
  have key : ∀ a b, a ≠ b → s1.Octree ops a .leaf → s1.Octree ops b .leaf → ∃ s2 s3, arrCollapse ops a 0 s1 = some s2 ∧
      arrCollapse ops b 0 s2 = some s3 ∧ ∀ x, x ≠ a → x ≠ b → s3.mem x = s1.mem x := by
    intro a b hab ha hb
    obtain ⟨s2, e1, e2⟩ := arr_destroy law ha
    obtain ⟨ns, f1, f2⟩ := hb.rep
    have f3 : s2.mem b = some ns := by rw [e2 b hab.symm, if_neg (by simp [ArrTree.Has]), f1]
    refine ⟨s2, _, e1, arrCollapse_spec law .leaf s2 b 0 ns ⟨ns, f3, f2⟩ trivial (by simp [ArrTree.Has]) f3, fun x hx hx' => ?_⟩
    have g : ((s2.clear ArrTree.leaf.Has).put b (Function.update ns 0 (arrDone ops (ns 0)))).mem x = s2.mem x := by
      simp [ArrState.put, ArrState.clear, Function.update_of_ne hx', ArrTree.Has]
    rw [g, e2 x hx, if_neg (by simp [ArrTree.Has])]
  rcases hab with ⟨rfl, rfl⟩ | ⟨rfl, rfl⟩
  · obtain ⟨s2, s3, e1, e2, e3⟩ := key _ _ hne h2 h3
    exact ⟨s2, s3, e1, e2, fun x hx hx' => by rw [e3 x hx hx', h4 x hx']⟩
  · obtain ⟨s2, s3, e1, e2, e3⟩ := key _ _ hne.symm h3 h2
    exact ⟨s2, s3, e1, e2, fun x hx hx' => by rw [e3 x hx' hx, h4 x hx']⟩

end

/-- **C79** (MDC octree).  As `C79_dc`. -/
theorem C79_mdc {r c : Nat} {s : ArrState MdcRaw} {ch : Fin 8 → ArrTree} (h : s.Octree mdcOps r (.inner c ch)) :
    ∃ s1, arrCopy r s = some s1 ∧ s1.Octree mdcOps r (.inner c ch) ∧ s1.Octree mdcOps s.next (.inner c ch) ∧
      ∀ a b, (a = r ∧ b = s.next) ∨ (a = s.next ∧ b = r) → ∃ s2, arrCollapse mdcOps a 0 s1 = some s2 ∧
        (∀ x, (ArrTree.inner c ch).Has x → s2.mem x = none) ∧ arrCollapse mdcOps b 0 s2 = none := arr_copy_inner mdcOps_lawful h

/-- **C79** (DMC octree).  As `C79_dc`. -/
theorem C79_dmc {r c : Nat} {s : ArrState RawPtr} {ch : Fin 8 → ArrTree} (h : s.Octree dmcOps r (.inner c ch)) :
    ∃ s1, arrCopy r s = some s1 ∧ s1.Octree dmcOps r (.inner c ch) ∧ s1.Octree dmcOps s.next (.inner c ch) ∧
      ∀ a b, (a = r ∧ b = s.next) ∨ (a = s.next ∧ b = r) → ∃ s2, arrCollapse dmcOps a 0 s1 = some s2 ∧
        (∀ x, (ArrTree.inner c ch).Has x → s2.mem x = none) ∧ arrCollapse dmcOps b 0 s2 = none := arr_copy_inner dmcOps_lawful h

/-- **C79** (MDC octree, one leaf).  As `C79_dc_leaf`. -/
theorem C79_mdc_leaf {r : Nat} {s : ArrState MdcRaw} (h : s.Octree mdcOps r .leaf) :
    ∃ s1, arrCopy r s = some s1 ∧ s1.Octree mdcOps r .leaf ∧ s1.Octree mdcOps s.next .leaf ∧
      ∀ a b, (a = r ∧ b = s.next) ∨ (a = s.next ∧ b = r) → ∃ s2 s3, arrCollapse mdcOps a 0 s1 = some s2 ∧ arrCollapse mdcOps b 0 s2 = some s3 ∧
        ∀ x, x ≠ r → x ≠ s.next → s3.mem x = s.mem x := arr_copy_leaf mdcOps_lawful h

/-- **C79** (DMC octree, one leaf).  As `C79_dc_leaf`. -/
theorem C79_dmc_leaf {r : Nat} {s : ArrState RawPtr} (h : s.Octree dmcOps r .leaf) :
    ∃ s1, arrCopy r s = some s1 ∧ s1.Octree dmcOps r .leaf ∧ s1.Octree dmcOps s.next .leaf ∧
      ∀ a b, (a = r ∧ b = s.next) ∨ (a = s.next ∧ b = r) → ∃ s2 s3, arrCollapse dmcOps a 0 s1 = some s2 ∧ arrCollapse dmcOps b 0 s2 = some s3 ∧
        ∀ x, x ≠ r → x ≠ s.next → s3.mem x = s.mem x := arr_copy_leaf dmcOps_lawful h

/-! ### Non-vacuity -/

/-- A new DC octree can be built with a subdivided root: nothing is collapsed. -/
theorem copies_case : ∃ (plan : RawPlan) (s : RawState) (ch : Fin 8 → RawTree), rawBuild plan 1 ⟨0, 0, 0⟩ 0 (newRaw 8) = .ok s ∧
    s.Octree 0 (.inner 0 ch) ∧ ∀ i, (ch i).Full := by
  let plan : RawPlan := ⟨fun _ _ => false, fun _ _ _ => true⟩
  obtain ⟨h1, -⟩ := C66_build plan 1 ⟨0, 0, 0⟩ 0 (newRaw 8) (.leaf 0) (newRaw_octree 8) (fun h => absurd h (by norm_num [newRaw]))
  obtain ⟨s, t, e1, e2, e3, -⟩ := h1 (by norm_num [rawAllocs, newRaw])
  have hbuilt : ∃ s, rawBuild plan 1 ⟨0, 0, 0⟩ 0 (newRaw 8) = .ok s ∧ ∃ n, s.mem 0 = some n ∧ n.isLeaf = false :=
    ⟨_, rfl, _, rfl, rfl⟩
  obtain ⟨s', e1', n, hn, hl⟩ := hbuilt
  rw [e1] at e1'
  cases e1'
  cases t with
  | null => exact e3.elim
  | leaf a =>
    obtain ⟨g1, m, g2, g3⟩ := e2.rep
    cases g1
    rw [hn] at g2
    cases g2
    rw [hl] at g3
    simp at g3
  | inner a ch =>
    obtain ⟨g1, -⟩ := e2.rep
    cases g1
    exact ⟨plan, s, ch, e1, e2, e3⟩

/-- New MDC octrees can be built with a subdivided root, too. -/
theorem copies_case_mdc : ∃ s c ch, arrBuild mdcOps demoArrPlan 1 ⟨-1, -1, -1⟩ 0 (newArr mdcOps 12) = .ok s ∧ s.Octree mdcOps 0 (.inner c ch) := by
  obtain ⟨s', t', h1, h2, h3, -⟩ := (C67_mdc demoArrPlan 1 ⟨-1, -1, -1⟩ 0 _ _ (newArr_octree mdcOps_lawful 12)).1 (by decide)
  cases t' with
  | leaf => simp [ArrTree.Shape, demoArrPlan] at h3
  | inner c ch => exact ⟨s', c, ch, h1, h2⟩

/-- So can DMC octrees. -/
theorem copies_case_dmc : ∃ s c ch, arrBuild dmcOps demoArrPlan 1 ⟨-1, -1, -1⟩ 0 (newArr dmcOps 12) = .ok s ∧ s.Octree dmcOps 0 (.inner c ch) := by
  obtain ⟨s', t', h1, h2, h3, -⟩ := (C67_dmc demoArrPlan 1 ⟨-1, -1, -1⟩ 0 _ _ (newArr_octree dmcOps_lawful 12)).1 (by decide)
  cases t' with
  | leaf => simp [ArrTree.Shape, demoArrPlan] at h3
  | inner c ch => exact ⟨s', c, ch, h1, h2⟩

end Isomesh
