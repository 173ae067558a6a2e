import Verif.Proofs.MdcForest

/-! Clustering a whole `MDC_Octree`, bottom up. -/

namespace Isomesh
open Spec Relation

set_option linter.unusedSectionVars false
variable {K : Type} [Add K] [_root_.Sub K] [Mul K] [Div K] [Neg K] [Zero K] [One K] [OfNat K 2] [OfScientific K] [NatCast K] [IntCast K]
  [Fabs K] [Elem K] [LinearOrder K] [RoundedLaws K]

variable {env : DcEnv K} {g : Grid K} {options : Qef K 3}

/-! ### The heap after one node -/

section
variable {h : MdcHeap K} {vs : List Nat} {f : Nat → Nat} {ws : List (MdcVertex K)}

theorem node_old (hc : Clean h) {a : Nat} {v : MdcVertex K} (hv : h[a]? = some v) :
    (mergeH h vs f vs ++ ws)[a]? = some { v with parent := if a ∈ vs then some (h.length + clusterNo vs f a) else v.parent } := by
  have ha := (List.getElem?_eq_some_iff.1 hv).1
  rw [List.getElem?_append_left (by rw [mergeH_length]; exact ha), mergeH_get, hv, Option.map_some]
  have := hc a v hv
  congr 1
  split
  · obtain ⟨_, _, _, _, _, _, _, _, _⟩ := v; cases this; rfl
  · obtain ⟨_, _, _, _, _, _, _, _, _⟩ := v; cases this; rfl

theorem node_new (c : Nat) : (mergeH h vs f vs ++ ws)[h.length + c]? = ws[c]? := by
  rw [List.getElem?_append_right (by rw [mergeH_length]; omega), mergeH_length, Nat.add_sub_cancel_left]

theorem node_par (hc : Clean h) (hlt : ∀ x ∈ vs, x < h.length) (hw : ∀ v ∈ ws, v.parent = none) {a b : Nat} :
    Par (mergeH h vs f vs ++ ws) a b ↔ (a ∉ vs ∧ Par h a b) ∨ (a ∈ vs ∧ b = h.length + clusterNo vs f a) := by
  rcases Nat.lt_or_ge a h.length with ha | ha
  · have e := List.getElem?_eq_getElem ha
    have e' := node_old (vs := vs) (f := f) (ws := ws) hc e
    unfold Par
    rw [e', e]
    constructor
    · rintro ⟨v, h1, h2⟩
      cases h1
      by_cases hm : a ∈ vs
      · rw [if_pos hm] at h2; cases h2; exact Or.inr ⟨hm, rfl⟩
      · rw [if_neg hm] at h2; exact Or.inl ⟨hm, _, rfl, h2⟩
    · rintro (⟨hm, v, h1, h2⟩ | ⟨hm, rfl⟩)
      · cases h1
        exact ⟨_, rfl, by rw [if_neg hm]; exact h2⟩
      · exact ⟨_, rfl, by rw [if_pos hm]⟩
  · constructor
    · rintro ⟨v, h1, h2⟩
      obtain ⟨c, rfl⟩ := Nat.exists_eq_add_of_le ha
      rw [node_new] at h1
      rw [hw v (List.mem_of_getElem? h1)] at h2
      cases h2
    · rintro (⟨-, h1⟩ | ⟨h1, -⟩)
      · have := par_lt h1; omega
      · have := hlt a h1; omega

theorem node_ext (hc : Clean h) (htop : ∀ x ∈ vs, ∀ b, ¬ Par h x b) : Ext h (mergeH h vs f vs ++ ws) := by
  refine ⟨by rw [List.length_append, mergeH_length]; omega, fun a v hv => ⟨_, node_old hc hv, ?_⟩⟩
  by_cases hm : a ∈ vs
  · rw [if_pos hm]
    refine Or.inr ⟨?_, _, Nat.le_add_right _ _, rfl⟩
    cases e : v.parent with
    | none => rfl
    | some b => exact absurd ⟨v, hv, e⟩ (htop a hm b)
  · rw [if_neg hm]; exact Or.inl rfl

theorem node_ok (ok : HeapOK h) (hc : Clean h) (hlt : ∀ x ∈ vs, x < h.length) (hw : ∀ v ∈ ws, v.parent = none)
    (hcl : ∀ x ∈ vs, clusterNo vs f x < ws.length) : HeapOK (mergeH h vs f vs ++ ws) := by
  intro a b hp
  rw [List.length_append, mergeH_length]
  rcases (node_par hc hlt hw).1 hp with ⟨-, h1⟩ | ⟨h1, rfl⟩
  · have := ok _ _ h1; omega
  · have := hlt a h1; have := hcl a h1; omega

theorem node_clean (hc : Clean h) (hw : ∀ v ∈ ws, v.surfaceIdx = kBadIndex) : Clean (mergeH h vs f vs ++ ws) := by
  intro a v hv
  rcases Nat.lt_or_ge a h.length with ha | ha
  · have e := List.getElem?_eq_getElem ha
    rw [node_old hc e] at hv
    cases hv
    exact hc a h[a] e
  · obtain ⟨c, rfl⟩ := Nat.exists_eq_add_of_le ha
    rw [node_new] at hv
    exact hw v (List.mem_of_getElem? hv)

theorem node_topOf (ok : HeapOK h) (hc : Clean h) (hlt : ∀ x ∈ vs, x < h.length) (hw : ∀ v ∈ ws, v.parent = none)
    (hcl : ∀ x ∈ vs, clusterNo vs f x < ws.length) (htop : ∀ x ∈ vs, ∀ b, ¬ Par h x b) {a : Nat} (ha : a < h.length) :
    topOf (mergeH h vs f vs ++ ws) a = if topOf h a ∈ vs then h.length + clusterNo vs f (topOf h a) else topOf h a := by
  have ht := topOf_top ok ha
  have e := node_ext (f := f) (ws := ws) hc htop
  apply topOf_eq (node_ok ok hc hlt hw hcl) (ext_lt e ha)
  split
  · rename_i hm
    refine ⟨(ext_anc e ht.1).tail ((node_par hc hlt hw).2 (Or.inr ⟨hm, rfl⟩)), fun b hb => ?_⟩
    rcases (node_par hc hlt hw).1 hb with ⟨-, h1⟩ | ⟨h1, -⟩
    · have := par_lt h1; omega
    · have := hlt _ h1; omega
  · rename_i hm
    refine ⟨ext_anc e ht.1, fun b hb => ?_⟩
    rcases (node_par hc hlt hw).1 hb with ⟨-, h1⟩ | ⟨h1, -⟩
    · exact ht.2 b h1
    · exact hm h1

end

/-! ### Small facts on trees -/

theorem leafAddrs_locate (t : MdcNode) (c : Cube) : leafAddrs t = (locate t c).leaves.flatMap (·.2.verts) := by
  induction t generalizing c with
  | leaf l => rfl
  | inner d ch ih =>
    rw [leafAddrs_inner, leaves_inner, List.flatMap_assoc]
    congr 1
    funext i
    exact ih i _

theorem ordered_par {h : MdcHeap K} : ∀ {t : MdcNode} {up : List Nat}, Ordered h up t → ∀ {a b : Nat}, a ∈ addrs t → Par h a b → b ∈ up ∨ b ∈ addrs t := by
  intro t
  induction t with
  | leaf l => intro up ho a b ha hb; exact Or.inl (ho a ha b hb)
  | inner d ch ih =>
    intro up ho a b ha hb
    rcases mem_addrs_inner.1 ha with h1 | ⟨i, h1⟩
    · exact Or.inl (ho.1 a h1 b hb)
    · rcases ih i (ho.2 i) h1 hb with h2 | h2
      · rcases List.mem_append.1 h2 with h3 | h3
        · exact Or.inl h3
        · exact Or.inr (mem_addrs_inner.2 (Or.inl h3))
      · exact Or.inr (mem_addrs_inner.2 (Or.inr ⟨i, h2⟩))

theorem ordered_anc {h : MdcHeap K} {t : MdcNode} (ho : Ordered h [] t) {a b : Nat} (ha : a ∈ addrs t) (hab : Anc h a b) : b ∈ addrs t := by
  induction hab with
  | refl => exact ha
  | tail _ h2 ih =>
    rcases ordered_par ho ih h2 with h3 | h3
    · cases h3
    · exact h3

theorem clustered_par {h : MdcHeap K} : ∀ {t : MdcNode} {c : Cube}, Clustered env options h t c → ∀ {a b : Nat}, b ∈ addrs t → Par h a b → a ∈ addrs t := by
  intro t
  induction t with
  | leaf l => intro c hc a b hb hp; exact absurd hp ((hc b hb).2 a)
  | inner d ch ih =>
    intro c hc a b hb hp
    rcases mem_addrs_inner.1 hb with h1 | ⟨i, h1⟩
    · obtain ⟨-, ⟨ks, qc, w, -, -, k3, k4, -⟩, -⟩ := hc.1 b h1
      obtain ⟨i, hi⟩ := k4 a ((k3 a).2 hp)
      exact mem_addrs_inner.2 (Or.inr ⟨i, hi⟩)
    · exact mem_addrs_inner.2 (Or.inr ⟨i, ih i (hc.2 i) h1 hp⟩)

theorem clustered_anc {h : MdcHeap K} {t : MdcNode} {c : Cube} (hc : Clustered env options h t c) {a b : Nat} (hb : b ∈ addrs t) (hab : Anc h a b) :
    a ∈ addrs t := by
  induction hab using ReflTransGen.head_induction_on with
  | refl => exact hb
  | head h1 _ ih => exact clustered_par hc ih h1

theorem clustered_lt {h : MdcHeap K} : ∀ {t : MdcNode} {c : Cube}, Clustered env options h t c → ∀ {a : Nat}, a ∈ addrs t → a < h.length := by
  intro t
  induction t with
  | leaf l => intro c hc a ha; exact (hc a ha).1
  | inner d ch ih =>
    intro c hc a ha
    rcases mem_addrs_inner.1 ha with h1 | ⟨i, h1⟩
    · exact (hc.1 a h1).lt
    · exact ih i (hc.2 i) h1

/-- Every vertex replaces some vertex of a leaf. -/
theorem clustered_leaf {h : MdcHeap K} : ∀ {t : MdcNode} {c : Cube}, Clustered env options h t c → ∀ {x : Nat}, x ∈ addrs t →
    ∃ a ∈ leafAddrs t, Anc h a x := by
  intro t
  induction t with
  | leaf l => intro c hc x hx; exact ⟨x, by simpa [leafAddrs, Oct.leaves, addrs] using hx, ReflTransGen.refl⟩
  | inner d ch ih =>
    intro c hc x hx
    rcases mem_addrs_inner.1 hx with h1 | ⟨i, h1⟩
    · obtain ⟨-, ⟨ks, qc, w, k1, -, k3, k4, -⟩, -⟩ := hc.1 x h1
      obtain ⟨y, hy⟩ := List.exists_mem_of_ne_nil _ k1
      obtain ⟨i, hi⟩ := k4 y hy
      obtain ⟨a, ha, hay⟩ := ih i (hc.2 i) hi
      exact ⟨a, mem_leafAddrs_inner.2 ⟨i, ha⟩, hay.tail ((k3 y).1 hy)⟩
    · obtain ⟨a, ha, hax⟩ := ih i (hc.2 i) h1
      exact ⟨a, mem_leafAddrs_inner.2 ⟨i, ha⟩, hax⟩

/-- An invariant may depend on the position. -/
theorem threadM_seq {S α : Type} (n : Nat) (b : Fin n → S → Option (S × α)) (I : Nat → S → Prop) (R : Fin n → S → S → α → Prop)
    (hb : ∀ (i : Fin n) s s' a, I i s → b i s = some (s', a) → I (i + 1) s' ∧ R i s s' a) {s s' : S} {r : Fin n → α} (hs : I 0 s)
    (h : threadM n b s = some (s', r)) : ∃ σ : Nat → S, σ 0 = s ∧ σ n = s' ∧ (∀ i, i ≤ n → I i (σ i)) ∧ ∀ i : Fin n, R i (σ i) (σ (i + 1)) (r i) := by
  induction n generalizing s s' I with
  | zero => cases h; exact ⟨fun _ => s, rfl, rfl, fun i hi => by rw [Nat.le_zero.1 hi]; exact hs, fun i => i.elim0⟩
  | succ n ih =>
    rw [threadM] at h
    split at h
    · cases h
    rename_i s1 a h1
    split at h
    · cases h
    rename_i s2 r' h2
    cases h
    obtain ⟨i1, r1⟩ := hb 0 _ _ _ hs h1
    obtain ⟨σ, e1, e2, e3, e4⟩ := ih (fun i => b i.succ) (fun i => I (i + 1)) (fun i => R i.succ) (fun i => hb i.succ) i1 h2
    refine ⟨fun k => match k with | 0 => s | k + 1 => σ k, rfl, e2, ?_, ?_⟩
    · intro i hi
      cases i with
      | zero => exact hs
      | succ i => exact e3 i (by omega)
    · intro i
      refine Fin.cases ?_ (fun i => ?_) i
      · show R 0 s (σ 0) a
        rw [e1]; exact r1
      · exact e4 i

/-! ### The whole tree -/

/-- Result of clustering the tree `t` in the heap `h`. -/
structure Clu (env : DcEnv K) (g : Grid K) (options : Qef K 3) (h h' : MdcHeap K) (t t' : MdcNode) (c : Cube) (depth : Nat) : Prop where
  ext : Ext h h'
  ok : HeapOK h'
  clean : Clean h'
  tree : MTree g t' c depth
  loc : (locate t' c).leaves = (locate t c).leaves
  frame : ∀ a < h.length, a ∉ leafAddrs t → h'[a]? = h[a]?
  mem : ∀ a, a ∈ addrs t' ↔ a ∈ leafAddrs t ∨ (h.length ≤ a ∧ a < h'.length)
  nodup : (addrs t').Nodup
  ordered : Ordered h' [] t'
  cl : Clustered env options h' t' c
  top : ∀ a ∈ leafAddrs t, ∀ b ∈ leafAddrs t, (topOf h' a = topOf h' b ↔ EqvGen (TreeRel t') a b)

/-- The vertices of the leaves of `t` are not linked with anything yet. -/
structure Fresh (h : MdcHeap K) (t : MdcNode) : Prop where
  lt : ∀ a ∈ leafAddrs t, a < h.length
  up : ∀ a ∈ leafAddrs t, ∀ b, ¬ Par h a b
  down : ∀ a ∈ leafAddrs t, ∀ b, ¬ Par h b a

theorem clu_leafAddrs {h h' : MdcHeap K} {t t' : MdcNode} {c : Cube} {depth : Nat} (hc : Clu env g options h h' t t' c depth) : leafAddrs t' = leafAddrs t := by
  rw [leafAddrs_locate t' c, leafAddrs_locate t c, hc.loc]

theorem eqv_of_empty {R : Nat → Nat → Prop} (hR : ∀ a b, ¬ R a b) (a b : Nat) : EqvGen R a b ↔ a = b := by
  constructor
  · intro h
    rcases eqv_out (P := fun _ => False) (fun a b h => absurd h (hR a b)) h with h | h
    · exact h
    · exact h.1.elim
  · rintro rfl; exact EqvGen.refl _

theorem clu_leaf {h : MdcHeap K} (ok : HeapOK h) (hc : Clean h) {l : MdcLeaf} {c : Cube} {depth : Nat} (ht : MTree g (.leaf l) c depth)
    (hf : Fresh h (.leaf l)) (hn : (leafAddrs (.leaf l)).Nodup) : Clu env g options h h (.leaf l) (.leaf l) c depth := by
  have e : leafAddrs (.leaf l) = l.verts := by simp [leafAddrs, Oct.leaves]
  refine ⟨ext_refl h, ok, hc, ht, rfl, fun _ _ _ => rfl, fun a => ?_, ?_, ?_, ?_, ?_⟩
  · rw [e]
    show a ∈ l.verts ↔ _
    constructor
    · exact Or.inl
    · rintro (h1 | h1)
      · exact h1
      · omega
  · rw [e] at hn; exact hn
  · intro a ha b hb
    exact absurd hb (hf.up a (by rw [e]; exact ha) b)
  · intro a ha
    rw [← e] at ha
    exact ⟨hf.lt a ha, hf.down a ha⟩
  · intro a ha b hb
    rw [topOf_eq ok (hf.lt a ha) ⟨ReflTransGen.refl, hf.up a ha⟩, topOf_eq ok (hf.lt b hb) ⟨ReflTransGen.refl, hf.up b hb⟩,
      eqv_of_empty]
    rintro x y ⟨call, hcall, -⟩
    rw [Trav.cellProc] at hcall
    cases hcall

theorem range_find (len : Nat → Nat) (n a : Nat) (h0 : len 0 ≤ a) (hn : a < len n) : ∃ i : Fin n, len i ≤ a ∧ a < len (i + 1) := by
  induction n with
  | zero => omega
  | succ n ih =>
    rcases Nat.lt_or_ge a (len n) with h | h
    · obtain ⟨i, hi⟩ := ih h
      exact ⟨i.castSucc, by simpa using hi⟩
    · exact ⟨Fin.last n, by simpa using ⟨h, hn⟩⟩

/-- Result of clustering all children. -/
structure Kids (env : DcEnv K) (g : Grid K) (options : Qef K 3) (h h' : MdcHeap K) (ch ch' : Fin 8 → MdcNode) (c : Cube) (depth : Nat) : Prop where
  ext : Ext h h'
  ok : HeapOK h'
  clean : Clean h'
  tree : ∀ i, MTree g (ch' i) (c.octant i) depth
  loc : ∀ i, (locate (ch' i) (c.octant i)).leaves = (locate (ch i) (c.octant i)).leaves
  frame : ∀ a < h.length, (∀ i, a ∉ leafAddrs (ch i)) → h'[a]? = h[a]?
  mem : ∀ a, (∃ i, a ∈ addrs (ch' i)) ↔ (∃ i, a ∈ leafAddrs (ch i)) ∨ (h.length ≤ a ∧ a < h'.length)
  disj : ∀ i j a, a ∈ addrs (ch' i) → a ∈ addrs (ch' j) → i = j
  nodup : ∀ i, (addrs (ch' i)).Nodup
  ordered : ∀ i, Ordered h' [] (ch' i)
  cl : ∀ i, Clustered env options h' (ch' i) (c.octant i)
  top : ∀ i, ∀ a ∈ leafAddrs (ch i), ∀ b ∈ leafAddrs (ch i), (topOf h' a = topOf h' b ↔ EqvGen (TreeRel (ch' i)) a b)

theorem leafAddrs_disj {d : Nat × List Nat} {ch : Fin 8 → MdcNode} (hn : (leafAddrs (.inner d ch)).Nodup) :
    (∀ i, (leafAddrs (ch i)).Nodup) ∧ ∀ i j a, a ∈ leafAddrs (ch i) → a ∈ leafAddrs (ch j) → i = j := by
  rw [leafAddrs_inner, List.nodup_flatMap] at hn
  refine ⟨fun i => hn.1 i (List.mem_finRange i), fun i j a hi hj => ?_⟩
  by_contra hij
  have hp := hn.2
  haveI : Std.Symm (Function.onFun List.Disjoint fun i => leafAddrs (ch i)) := ⟨fun _ _ h => List.Disjoint.symm h⟩
  have := hp.forall (List.mem_finRange i) (List.mem_finRange j) hij
  exact this hi hj

/-- State before child `i`. -/
structure KidInv (options : Qef K 3) (ch : Fin 8 → MdcNode) (i : Nat) (s : Qef K 3 × MdcHeap K) : Prop where
  opt : SameOptions options s.1
  ok : HeapOK s.2
  clean : Clean s.2
  fresh : ∀ j : Fin 8, i ≤ j → Fresh s.2 (ch j)

theorem kidInv_step {ch : Fin 8 → MdcNode} {c : Cube} {depth : Nat} {d : Nat × List Nat} (hn : (leafAddrs (.inner d ch)).Nodup) {i : Fin 8}
    {s s' : Qef K 3 × MdcHeap K} {n : MdcNode} (hs : KidInv options ch i s) (ho : SameOptions options s'.1)
    (hc : Clu env g options s.2 s'.2 (ch i) n c depth) : KidInv options ch (i + 1) s' := by
  refine ⟨ho, hc.ok, hc.clean, fun j hj => ?_⟩
  have hfj := hs.fresh j (by omega)
  have hij : i ≠ j := by rintro rfl; omega
  refine ⟨fun a ha => ext_lt hc.ext (hfj.lt a ha), fun a ha b hb => ?_, fun a ha b hb => ?_⟩
  · have := hc.frame a (hfj.lt a ha) (fun h => hij ((leafAddrs_disj hn).2 i j a h ha))
    obtain ⟨v, e1, e2⟩ := hb
    rw [this] at e1
    exact hfj.up a ha b ⟨v, e1, e2⟩
  · exact hfj.down a ha b (ext_par_old hc.ext hc.ok (hfj.lt a ha) hb)

theorem isTop_congr {h h' : MdcHeap K} {a r : Nat} (hp : ∀ x y, Anc h a x → (Par h x y ↔ Par h' x y)) (hr : IsTop h a r) : IsTop h' a r :=
  ⟨anc_congr (fun x y hx hxy => (hp x y hx).1 hxy) hr.1, fun b hb => hr.2 b ((hp r b hr.1).2 hb)⟩

theorem kids_ok {d : Nat × List Nat} {ch ch' : Fin 8 → MdcNode} {c : Cube} {depth : Nat} (hn : (leafAddrs (.inner d ch)).Nodup)
    {σ : Nat → Qef K 3 × MdcHeap K} (hi : ∀ i, i ≤ 8 → KidInv options ch i (σ i))
    (hc : ∀ i : Fin 8, Clu env g options (σ i).2 (σ (i + 1)).2 (ch i) (ch' i) (c.octant i) depth) :
    Kids env g options (σ 0).2 (σ 8).2 ch ch' c depth := by
  have hext : ∀ i j, i ≤ j → j ≤ 8 → Ext (σ i).2 (σ j).2 := by
    intro i j hij hj
    induction j with
    | zero => rw [Nat.le_zero.1 hij]; exact ext_refl _
    | succ j ihj =>
      rcases Nat.lt_or_ge i (j + 1) with h | h
      · exact ext_trans (ihj (by omega) (by omega)) (hc ⟨j, by omega⟩).ext
      · rw [show i = j + 1 by omega]; exact ext_refl _
  have hfr : ∀ i j a, i ≤ j → j ≤ 8 → a < (σ i).2.length → (∀ k : Fin 8, i ≤ k → a ∉ leafAddrs (ch k)) → (σ j).2[a]? = (σ i).2[a]? := by
    intro i j a hij hj ha hk
    induction j with
    | zero => rw [Nat.le_zero.1 hij]
    | succ j ihj =>
      rcases Nat.lt_or_ge i (j + 1) with h | h
      · rw [← ihj (by omega) (by omega)]
        exact (hc ⟨j, by omega⟩).frame a (ext_lt (hext i j (by omega) (by omega)) ha) (hk ⟨j, by omega⟩ (by simp; omega))
      · rw [show i = j + 1 by omega]
  have h0 : ∀ (j : Fin 8), ∀ a ∈ leafAddrs (ch j), a < (σ 0).2.length := fun j a ha => ((hi 0 (by omega)).fresh j (by omega)).lt a ha
  have hlen : ∀ i j, i ≤ j → j ≤ 8 → (σ i).2.length ≤ (σ j).2.length := fun i j h1 h2 => (hext i j h1 h2).len
  have hfix : ∀ (i : Fin 8), ∀ a ∈ addrs (ch' i), (σ 8).2[a]? = (σ (i + 1)).2[a]? := by
    intro i a ha
    refine hfr (i + 1) 8 a (by omega) (le_refl _) (clustered_lt (hc i).cl ha) (fun k hk hak => ?_)
    have hl := hlen 0 i (by omega) (by omega)
    have h1 := h0 k a hak
    rcases ((hc i).mem a).1 ha with h2 | h2
    · have := (leafAddrs_disj hn).2 i k a h2 hak
      subst this; omega
    · omega
  have hpar : ∀ (i : Fin 8), ∀ a ∈ addrs (ch' i), ∀ b, Par (σ (i + 1)).2 a b ↔ Par (σ 8).2 a b := by
    intro i a ha b
    unfold Par
    rw [hfix i a ha]
  have hlo : ∀ (i : Fin 8), Ext (σ (i + 1)).2 (σ 8).2 := fun i => hext _ _ (by omega) (le_refl _)
  have ok8 := (hi 8 (le_refl _)).ok
  have htop : ∀ (i : Fin 8), ∀ a ∈ leafAddrs (ch i), topOf (σ 8).2 a = topOf (σ (i + 1)).2 a := by
    intro i a ha
    have ha' : a ∈ addrs (ch' i) := ((hc i).mem a).2 (Or.inl ha)
    have hl := clustered_lt (hc i).cl ha'
    refine topOf_eq ok8 (ext_lt (hlo i) hl) (isTop_congr (fun x y hx => ?_) (topOf_top (hc i).ok hl))
    exact hpar i x (ordered_anc (hc i).ordered ha' hx) y
  refine ⟨hext 0 8 (by omega) (le_refl _), ok8, (hi 8 (le_refl _)).clean, fun i => (hc i).tree, fun i => (hc i).loc, ?_, ?_, ?_, fun i => (hc i).nodup,
    ?_, fun i => clustered_ext (hlo i) ok8 (hc i).cl, ?_⟩
  · intro a ha hk
    exact hfr 0 8 a (by omega) (le_refl _) ha (fun k _ => hk k)
  · intro a
    constructor
    · rintro ⟨i, ha⟩
      rcases ((hc i).mem a).1 ha with h2 | h2
      · exact Or.inl ⟨i, h2⟩
      · have := hlen 0 i (by omega) (by omega)
        have := hlen (i + 1) 8 (by omega) (le_refl _)
        exact Or.inr ⟨by omega, by omega⟩
    · rintro (⟨i, ha⟩ | ⟨h1, h2⟩)
      · exact ⟨i, ((hc i).mem a).2 (Or.inl ha)⟩
      · obtain ⟨i, h3⟩ := range_find (fun i => (σ i).2.length) 8 a h1 h2
        exact ⟨i, ((hc i).mem a).2 (Or.inr h3)⟩
  · have key : ∀ i j : Fin 8, i < j → ∀ a, a ∈ addrs (ch' i) → a ∉ addrs (ch' j) := by
      intro i j hij a h1 h2
      have hl := clustered_lt (hc i).cl h1
      have hij' : (i : Nat) < j := hij
      have := hlen (i + 1) j (by omega) (by omega)
      have := hlen 0 i (by omega) (by omega)
      rcases ((hc j).mem a).1 h2 with h3 | h3
      · have := h0 j a h3
        rcases ((hc i).mem a).1 h1 with h4 | h4
        · have := (leafAddrs_disj hn).2 i j a h4 h3
          omega
        · omega
      · omega
    intro i j a h1 h2
    rcases lt_trichotomy i j with h | h | h
    · exact absurd h2 (key i j h a h1)
    · exact h
    · exact absurd h1 (key j i h a h2)
  · intro i
    exact ordered_mono (U := []) (hc i).ordered (fun a ha => ha) (fun a ha => ha) (fun a ha b hb => Or.inl ((hpar i a ha b).2 hb))
  · intro i a ha b hb
    rw [htop i a ha, htop i b hb]
    exact (hc i).top a ha b hb

theorem kids_calls {d : Nat × List Nat} {ch ch' : Fin 8 → MdcNode} {h h' : MdcHeap K} {c : Cube} {depth : Nat}
    (hk : Kids env g options h h' ch ch' c depth) (e : Nat × List Nat) : leafAddrs (.inner e ch') = leafAddrs (.inner d ch) := by
  rw [leafAddrs_inner, leafAddrs_inner]
  congr 1
  funext i
  rw [leafAddrs_locate (ch' i) (c.octant i), hk.loc i, ← leafAddrs_locate]

theorem cubeIn_sub {h : Int} {c : Cube} (hk0 : 0 < c.k) (hin : CubeIn h c) (i : Fin 8) : CubeIn h (c.octant i) := by
  obtain ⟨lo, k⟩ := c
  obtain ⟨k, rfl⟩ : ∃ j, k = j + 1 := ⟨k - 1, by dsimp only at hk0; omega⟩
  exact cubeIn_octant hin i

/-- From the children to the node. -/
theorem clu_inner {d : Nat × List Nat} {ch ch' : Fin 8 → MdcNode} {h h' : MdcHeap K} {c : Cube} {depth : Nat} (hk0 : 0 < c.k)
    (hin : CubeIn g.maxCoord c) (hf : Fresh h (.inner d ch))
    (hk : Kids env g options h h' ch ch' c (depth + 1)) {vs : List Nat} {f : Nat → Nat} {cnt : Nat} (hd : d.1 = depth)
    (hN : NodeFacts h' (mdcTrav.cellCalls ch') (leafAddrs (.inner d ch)) vs f cnt) {ws : List (MdcVertex K)} (hl : ws.length = cnt)
    (hw : ∀ i (hi : i < ws.length), ∃ qc, jointQef h' env options.reset (grp vs f i vs) = some qc ∧
      mdcSolveVertex env c.lo c.k qc (((grp vs f i vs).map (vmatAt h')).foldl FilterFast.add FilterFast.new)
        (((grp vs f i vs).map (vnormalAt h')).foldl Vec3.add ⟨0, 0, 0⟩) MdcVertex.new = some ws[i]) :
    Clu env g options h (mergeH h' vs f vs ++ ws) (.inner d ch) (.inner (d.1, List.range' h'.length cnt) ch') c depth := by
  have hleaf := kids_calls (d := d) hk (d.1, List.range' h'.length cnt)
  have hwp : ∀ v ∈ ws, v.parent = none ∧ v.surfaceIdx = kBadIndex := by
    intro v hv
    obtain ⟨i, hi, rfl⟩ := List.getElem_of_mem hv
    obtain ⟨qc, -, h1⟩ := hw i hi
    obtain ⟨-, -, -, h2, h3⟩ := mdcSolveVertex_some h1
    exact ⟨h2, h3⟩
  have hw1 := fun v hv => (hwp v hv).1
  have hcl : ∀ x ∈ vs, clusterNo vs f x < ws.length := fun x hx => by rw [hl]; exact hN.lt x hx
  have hS : ∀ a ∈ leafAddrs (.inner d ch), a < h'.length := fun a ha => ext_lt hk.ext (hf.lt a ha)
  have htop : ∀ x ∈ vs, ∀ b, ¬ Par h' x b := by
    intro x hx b hb
    obtain ⟨a, ha, rfl⟩ := hN.src x hx
    exact (topOf_top hk.ok (hS a ha)).2 b hb
  have e1 : Ext h' (mergeH h' vs f vs ++ ws) := node_ext hk.clean htop
  have ok1 : HeapOK (mergeH h' vs f vs ++ ws) := node_ok hk.ok hk.clean hN.old hw1 hcl
  have htopIn : ∀ i, ∀ a ∈ leafAddrs (ch i), topOf h' a ∈ addrs (ch' i) := by
    intro i a ha
    have ha' : a ∈ leafAddrs (.inner d ch) := mem_leafAddrs_inner.2 ⟨i, ha⟩
    have hb : a ∈ leafAddrs (ch' i) := by rw [leafAddrs_locate _ (c.octant i), hk.loc i, ← leafAddrs_locate]; exact ha
    exact ordered_anc (hk.ordered i) (leafAddrs_sub hb) (topOf_top hk.ok (hS a ha')).1
  have hvsIn : ∀ x ∈ vs, ∃ i, x ∈ addrs (ch' i) := by
    intro x hx
    obtain ⟨a, ha, rfl⟩ := hN.src x hx
    obtain ⟨i, hi⟩ := mem_leafAddrs_inner.1 ha
    exact ⟨i, htopIn i a hi⟩
  have hlen1 : (mergeH h' vs f vs ++ ws).length = h'.length + cnt := by rw [List.length_append, mergeH_length, hl]
  have htree : MTree g (.inner (d.1, List.range' h'.length cnt) ch') c depth := ⟨hk0, hd, hk.tree⟩
  have hcalls := mdc_calls_ok htree hin
  rw [hleaf] at hcalls
  have hcc : ∀ call ∈ mdcTrav.cellCalls ch', CallSkip call ∨ ∃ A, CallTo call A ∧ ∀ i, A i ∈ leafAddrs (.inner d ch) := by
    intro call hcall
    refine hcalls call ?_
    rw [Trav.cellProc]
    exact List.mem_append_right _ hcall
  have hccS : ∀ a b, CallRel (mdcTrav.cellCalls ch') a b → a ∈ leafAddrs (.inner d ch) ∧ b ∈ leafAddrs (.inner d ch) := fun a b => callRel_sub hcc
  have htr : ∀ i a b, TreeRel (ch' i) a b → a ∈ leafAddrs (ch i) ∧ b ∈ leafAddrs (ch i) := by
    intro i a b hab
    have := mdc_calls_ok (hk.tree i) (cubeIn_sub hk0 hin i)
    have := callRel_sub (t := ch' i) this hab
    rwa [leafAddrs_locate _ (c.octant i), hk.loc i, ← leafAddrs_locate] at this
  have hdisj : ∀ i j a, a ∈ leafAddrs (ch i) → a ∈ leafAddrs (ch j) → i = j := by
    have : ∀ i, ∀ a ∈ leafAddrs (ch i), a ∈ addrs (ch' i) := by
      intro i a ha
      refine leafAddrs_sub ?_
      rw [leafAddrs_locate _ (c.octant i), hk.loc i, ← leafAddrs_locate]; exact ha
    exact fun i j a h1 h2 => hk.disj i j a (this i a h1) (this j a h2)
  have hT : ∀ a b, a ∈ leafAddrs (.inner d ch) → b ∈ leafAddrs (.inner d ch) →
      (topOf h' a = topOf h' b ↔ EqvGen (fun x y => ∃ i, TreeRel (ch' i) x y) a b) := by
    intro a b ha hb
    obtain ⟨i, hi⟩ := mem_leafAddrs_inner.1 ha
    constructor
    · intro he
      obtain ⟨j, hj⟩ := mem_leafAddrs_inner.1 hb
      have hij : i = j := hk.disj i j _ (htopIn i a hi) (he ▸ htopIn j b hj)
      subst hij
      exact eqv_sub (fun x y hxy => EqvGen.rel _ _ ⟨i, hxy⟩) ((hk.top i a hi b hj).1 he)
    · intro he
      obtain ⟨h1, h2⟩ := eqv_union (S := fun i a => a ∈ leafAddrs (ch i)) htr hdisj hi he
      exact (hk.top i a hi b h1).2 h2
  have hquot : ∀ a b, a ∈ leafAddrs (.inner d ch) → b ∈ leafAddrs (.inner d ch) →
      (EqvGen (TreeRel (.inner (d.1, List.range' h'.length cnt) ch')) a b ↔
        EqvGen (TopRel h' (mdcTrav.cellCalls ch')) (topOf h' a) (topOf h' b)) := by
    intro a b ha hb
    have hq := eqv_quot (T := topOf h') (S := fun a => a ∈ leafAddrs (.inner d ch)) hT
      (fun x y ⟨i, hxy⟩ => ⟨mem_leafAddrs_inner.2 ⟨i, (htr i x y hxy).1⟩, mem_leafAddrs_inner.2 ⟨i, (htr i x y hxy).2⟩⟩) hccS ha hb
    refine (eqv_congr ?_ ?_ a b).trans (hq.trans (eqv_congr ?_ ?_ _ _))
    · intro x y hxy; exact EqvGen.rel _ _ ((treeRel_inner _ _ x y).1 hxy)
    · intro x y hxy; exact EqvGen.rel _ _ ((treeRel_inner _ _ x y).2 hxy)
    · rintro x y ⟨u, v, ⟨call, hcall, A, hA, i, j, rfl, rfl⟩, rfl, rfl⟩
      exact EqvGen.rel _ _ ⟨call, hcall, A, hA, i, j, rfl, rfl⟩
    · rintro x y ⟨call, hcall, A, hA, i, j, rfl, rfl⟩
      exact EqvGen.rel _ _ ⟨_, _, ⟨call, hcall, A, hA, i, j, rfl, rfl⟩, rfl, rfl⟩
  have hRin : ∀ x y, TopRel h' (mdcTrav.cellCalls ch') x y → x ∈ vs ∧ y ∈ vs := by
    rintro x y ⟨call, hcall, A, hA, i, j, rfl, rfl⟩
    exact ⟨(hN.mem _).2 ⟨call, hcall, A, hA, i, i, rfl, rfl⟩, (hN.mem _).2 ⟨call, hcall, A, hA, j, j, rfl, rfl⟩⟩
  have htops : ∀ a ∈ leafAddrs (.inner d ch), ∀ b ∈ leafAddrs (.inner d ch), (topOf (mergeH h' vs f vs ++ ws) a = topOf (mergeH h' vs f vs ++ ws) b ↔
      EqvGen (TreeRel (.inner (d.1, List.range' h'.length cnt) ch')) a b) := by
    intro a ha b hb
    rw [hquot a b ha hb, node_topOf hk.ok hk.clean hN.old hw1 hcl htop (hS a ha), node_topOf hk.ok hk.clean hN.old hw1 hcl htop (hS b hb)]
    have la := topOf_lt hk.ok (hS a ha)
    have lb := topOf_lt hk.ok (hS b hb)
    by_cases h1 : topOf h' a ∈ vs <;> by_cases h2 : topOf h' b ∈ vs
    · rw [if_pos h1, if_pos h2, ← hN.same _ h1 _ h2]; omega
    · rw [if_pos h1, if_neg h2]
      constructor
      · intro h; omega
      · intro h
        rcases eqv_out hRin h with h3 | h3
        · rw [← h3] at h2; exact absurd h1 h2
        · exact absurd h3.2 h2
    · rw [if_neg h1, if_pos h2]
      constructor
      · intro h; omega
      · intro h
        rcases eqv_out hRin h with h3 | h3
        · rw [h3] at h1; exact absurd h2 h1
        · exact absurd h3.1 h1
    · rw [if_neg h1, if_neg h2]
      constructor
      · intro h; rw [h]; exact EqvGen.refl _
      · intro h
        rcases eqv_out hRin h with h3 | h3
        · exact h3
        · exact absurd h3.1 h1
  have hmemIn : ∀ x, x ∈ List.range' h'.length cnt ↔ ∃ i < cnt, x = h'.length + i := by
    intro x; rw [List.mem_range'_1]
    constructor
    · intro h; exact ⟨x - h'.length, by omega, by omega⟩
    · rintro ⟨i, hi, rfl⟩; omega
  refine ⟨ext_trans hk.ext e1, ok1, node_clean hk.clean (fun v hv => (hwp v hv).2), htree, ?_, ?_, ?_, ?_, ?_, ?_, htops⟩
  · rw [leaves_inner, leaves_inner]
    congr 1
    funext i
    exact hk.loc i
  · intro a ha hna
    have hna' : ∀ i, a ∉ leafAddrs (ch i) := fun i hi => hna (mem_leafAddrs_inner.2 ⟨i, hi⟩)
    have e2 := hk.frame a ha hna'
    have ha' := ext_lt hk.ext ha
    have hav : a ∉ vs := by
      intro hav
      rcases (hk.mem a).1 (hvsIn a hav) with ⟨i, h1⟩ | h1
      · exact hna' i h1
      · omega
    rw [node_old hk.clean (List.getElem?_eq_getElem ha'), if_neg hav, ← e2, List.getElem?_eq_getElem ha']
  · intro a
    rw [mem_addrs_inner, mem_leafAddrs_inner, hk.mem a, hmemIn, hlen1]
    have := hk.ext.len
    constructor
    · rintro (⟨i, hi, rfl⟩ | h1 | h1)
      · exact Or.inr ⟨by omega, by omega⟩
      · exact Or.inl h1
      · exact Or.inr ⟨by omega, by omega⟩
    · rintro (h1 | ⟨h1, h2⟩)
      · exact Or.inr (Or.inl h1)
      · rcases Nat.lt_or_ge a h'.length with h3 | h3
        · exact Or.inr (Or.inr ⟨h1, h3⟩)
        · exact Or.inl ⟨a - h'.length, by omega, by omega⟩
  · rw [addrs_inner, List.nodup_append]
    refine ⟨List.nodup_range', ?_, ?_⟩
    · rw [List.nodup_flatMap]
      refine ⟨fun i _ => hk.nodup i, ?_⟩
      refine (List.nodup_finRange 8).imp ?_
      intro i j hij a h1 h2
      exact hij (hk.disj i j a h1 h2)
    · intro x hx y hy
      rw [hmemIn] at hx
      obtain ⟨i, hi, rfl⟩ := hx
      rw [List.mem_flatMap] at hy
      obtain ⟨j, -, hj⟩ := hy
      have := clustered_lt (hk.cl j) hj
      omega
  · refine ⟨?_, fun i => ?_⟩
    · intro a ha b hb
      obtain ⟨j, hj, rfl⟩ := (hmemIn a).1 ha
      rcases (node_par hk.clean hN.old hw1).1 hb with ⟨-, h1⟩ | ⟨h1, -⟩
      · have := par_lt h1; omega
      · have := hN.old _ h1; omega
    · refine ordered_mono (U := List.range' h'.length cnt) (hk.ordered i) (fun a ha => by cases ha) (fun a ha => by simpa using ha) ?_
      intro a ha b hb
      rcases (node_par hk.clean hN.old hw1).1 hb with ⟨-, h1⟩ | ⟨h1, rfl⟩
      · exact Or.inl h1
      · exact Or.inr ((hmemIn _).2 ⟨_, hN.lt a h1, rfl⟩)
  · refine ⟨?_, fun i => clustered_ext e1 ok1 (hk.cl i)⟩
    intro v hv
    obtain ⟨j, hj, rfl⟩ := (hmemIn v).1 hv
    have hj' : j < ws.length := by omega
    obtain ⟨qc, q1, q2⟩ := hw j hj'
    obtain ⟨s1, s2, s3, -, -⟩ := mdcSolveVertex_some q2
    have hgrp : ∀ x ∈ grp vs f j vs, x < h'.length := fun x hx => hN.old x (List.mem_filter.1 hx).1
    have hnoPar : ∀ b, ¬ Par (mergeH h' vs f vs ++ ws) (h'.length + j) b := by
      intro b hb
      rcases (node_par hk.clean hN.old hw1).1 hb with ⟨-, h1⟩ | ⟨h1, -⟩
      · have := par_lt h1; omega
      · have := hN.old _ h1; omega
    refine ⟨by rw [hlen1]; omega, ⟨grp vs f j vs, qc, ws[j], ?_, hN.nodup.filter _, ?_, ?_, ?_, ?_, s1, ?_, ?_⟩, ?_⟩
    · obtain ⟨x, hx, e⟩ := hN.hit j hj
      intro hnil
      have : x ∈ grp vs f j vs := List.mem_filter.2 ⟨hx, by simpa using e⟩
      rw [hnil] at this; cases this
    · intro x
      rw [node_par hk.clean hN.old hw1]
      unfold grp
      rw [List.mem_filter]
      constructor
      · rintro ⟨h1, h2⟩
        exact Or.inr ⟨h1, by rw [of_decide_eq_true h2]⟩
      · rintro (⟨-, h1⟩ | ⟨h1, h2⟩)
        · have := hk.ok _ _ h1; omega
        · exact ⟨h1, decide_eq_true (by omega)⟩
    · intro x hx
      exact hvsIn x (List.mem_filter.1 hx).1
    · rw [joint_ext e1 hgrp]; exact q1
    · rw [node_new]; exact List.getElem?_eq_getElem hj'
    · rw [vnormal_ext e1 hgrp]; exact s2
    · rw [vmat_ext e1 hgrp]; exact s3
    · intro a ha b hb h1 h2
      rw [hleaf] at ha hb
      refine (htops a ha b hb).1 ?_
      rw [topOf_eq ok1 (ext_lt e1 (hS a ha)) ⟨h1, hnoPar⟩, topOf_eq ok1 (ext_lt e1 (hS b hb)) ⟨h2, hnoPar⟩]

end Isomesh
