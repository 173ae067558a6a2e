import Verif.Proofs.MdcCalls
import Verif.Proofs.MdcMerge

/-! Clustering the vertices of a whole `MDC_Octree`. -/

namespace Isomesh
open Spec Relation

set_option linter.unusedSectionVars false
variable {K : Type} [Add K] [_root_.Sub K] [Mul K] [Div K] [Neg K] [Zero K] [One K] [OfNat K 2] [OfScientific K] [NatCast K] [IntCast K]
  [Fabs K] [Elem K] [LinearOrder K] [RoundedLaws K]

variable {env : DcEnv K} {g : Grid K} {options : Qef K 3}

/-! ### Heaps growing -/

/-- `h'` extends `h`: vertices are only added, and of the old ones only those without parent may get a (new) parent. -/
structure Ext (h h' : MdcHeap K) : Prop where
  len : h.length ≤ h'.length
  get : ∀ (a : Nat) (v : MdcVertex K), h[a]? = some v → ∃ p, h'[a]? = some { v with parent := p } ∧ (p = v.parent ∨ (v.parent = none ∧ ∃ b ≥ h.length, p = some b))

theorem ext_refl (h : MdcHeap K) : Ext h h := ⟨le_refl _, fun _ v e => ⟨v.parent, e, Or.inl rfl⟩⟩

theorem ext_trans {h1 h2 h3 : MdcHeap K} (a : Ext h1 h2) (b : Ext h2 h3) : Ext h1 h3 := by
  refine ⟨a.len.trans b.len, fun x v e => ?_⟩
  obtain ⟨p, e1, r1⟩ := a.get x v e
  obtain ⟨p', e2, r2⟩ := b.get x _ e1
  refine ⟨p', e2, ?_⟩
  dsimp only at r2
  have := a.len
  rcases r2 with rfl | ⟨hn, q, hq, rfl⟩
  · exact r1
  · rcases r1 with r1 | ⟨-, q', -, hq'⟩
    · exact Or.inr ⟨r1 ▸ hn, q, by omega, rfl⟩
    · rw [hn] at hq'; cases hq'

theorem ext_lt {h h' : MdcHeap K} (e : Ext h h') {a : Nat} (ha : a < h.length) : a < h'.length := lt_of_lt_of_le ha e.len

theorem ext_par {h h' : MdcHeap K} (e : Ext h h') {a b : Nat} (hp : Par h a b) : Par h' a b := by
  obtain ⟨v, e1, e2⟩ := hp
  obtain ⟨p, e3, r⟩ := e.get a v e1
  refine ⟨_, e3, ?_⟩
  rcases r with rfl | ⟨hn, -⟩
  · exact e2
  · rw [hn] at e2; cases e2

theorem ext_par_old {h h' : MdcHeap K} (e : Ext h h') (ok : HeapOK h') {a b : Nat} (hb : b < h.length) (hp : Par h' a b) : Par h a b := by
  have hab := ok _ _ hp
  obtain ⟨v, e1, e2⟩ := hp
  have ha : a < h.length := by omega
  obtain ⟨p, e3, r⟩ := e.get a _ (List.getElem?_eq_getElem ha)
  rw [e3] at e1; cases e1
  dsimp only at e2
  refine ⟨_, List.getElem?_eq_getElem ha, ?_⟩
  rcases r with r | ⟨-, q, hq, r⟩
  · rw [← r]; exact e2
  · rw [r] at e2; cases e2; omega

theorem ext_anc {h h' : MdcHeap K} (e : Ext h h') {a b : Nat} (hp : Anc h a b) : Anc h' a b := by
  induction hp with
  | refl => exact ReflTransGen.refl
  | tail _ h2 ih => exact ih.tail (ext_par e h2)

theorem ext_anc_old {h h' : MdcHeap K} (e : Ext h h') (ok : HeapOK h') {a b : Nat} (hb : b < h.length) (hp : Anc h' a b) : Anc h a b := by
  induction hp with
  | refl => exact ReflTransGen.refl
  | tail _ h2 ih =>
    have := ok _ _ h2
    exact (ih (by omega)).tail (ext_par_old e ok hb h2)

/-! ### Trees -/

/-- All addresses in a tree, the nodes before their children. -/
def addrs : MdcNode → List Nat
  | .leaf l => l.verts
  | .inner d ch => d.2 ++ (List.finRange 8).flatMap fun i => addrs (ch i)

theorem addrs_inner (d : Nat × List Nat) (ch : Fin 8 → MdcNode) :
    addrs (.inner d ch) = d.2 ++ (List.finRange 8).flatMap fun i => addrs (ch i) := rfl

theorem mem_addrs_inner {d : Nat × List Nat} {ch : Fin 8 → MdcNode} {a : Nat} : a ∈ addrs (.inner d ch) ↔ a ∈ d.2 ∨ ∃ i, a ∈ addrs (ch i) := by
  rw [addrs_inner, List.mem_append, List.mem_flatMap]
  simp

theorem mem_leafAddrs_inner {d : Nat × List Nat} {ch : Fin 8 → MdcNode} {a : Nat} : a ∈ leafAddrs (.inner d ch) ↔ ∃ i, a ∈ leafAddrs (ch i) := by
  rw [leafAddrs_inner, List.mem_flatMap]
  simp

theorem leafAddrs_sub {t : MdcNode} {a : Nat} (h : a ∈ leafAddrs t) : a ∈ addrs t := by
  induction t with
  | leaf l => simpa [leafAddrs, Oct.leaves, addrs] using h
  | inner d ch ih =>
    obtain ⟨i, hi⟩ := mem_leafAddrs_inner.1 h
    exact mem_addrs_inner.2 (Or.inr ⟨i, ih i hi⟩)

/-- Vertices of leaves met together at an edge crossing the surface. -/
def CallRel (calls : List (Axis × (Fin 4 → MdcNode))) (a b : Nat) : Prop := ∃ call ∈ calls, ∃ A, CallTo call A ∧ ∃ i j, A i = a ∧ A j = b

/-- The same for all edges inside a tree. -/
def TreeRel (t : MdcNode) : Nat → Nat → Prop := CallRel (mdcTrav.cellProc t)

theorem treeRel_inner (d : Nat × List Nat) (ch : Fin 8 → MdcNode) (a b : Nat) :
    TreeRel (.inner d ch) a b ↔ (∃ i, TreeRel (ch i) a b) ∨ CallRel (mdcTrav.cellCalls ch) a b := by
  unfold TreeRel CallRel
  rw [Trav.cellProc]
  simp only [List.mem_append, List.mem_flatMap, List.mem_finRange, true_and]
  constructor
  · rintro ⟨call, ⟨i, hi⟩ | hi, h⟩
    · exact Or.inl ⟨i, call, hi, h⟩
    · exact Or.inr ⟨call, hi, h⟩
  · rintro (⟨i, call, hi, h⟩ | ⟨call, hi, h⟩)
    · exact ⟨call, Or.inl ⟨i, hi⟩, h⟩
    · exact ⟨call, Or.inr hi, h⟩

theorem callRel_sub {t : MdcNode} {calls : List (Axis × (Fin 4 → MdcNode))}
    (hc : ∀ call ∈ calls, CallSkip call ∨ ∃ A, CallTo call A ∧ ∀ i, A i ∈ leafAddrs t) {a b : Nat} (h : CallRel calls a b) :
    a ∈ leafAddrs t ∧ b ∈ leafAddrs t := by
  obtain ⟨call, hcall, A, hA, i, j, rfl, rfl⟩ := h
  rcases hc call hcall with h1 | ⟨B, hB, hBS⟩
  · exact absurd h1 (callTo_skip hA)
  · rw [callTo_unique hA hB]; exact ⟨hBS i, hBS j⟩

/-- Parents are in nodes above. -/
def Ordered (h : MdcHeap K) : List Nat → MdcNode → Prop
  | up, .leaf l => ∀ a ∈ l.verts, ∀ b, Par h a b → b ∈ up
  | up, .inner d ch => (∀ a ∈ d.2, ∀ b, Par h a b → b ∈ up) ∧ ∀ i, Ordered h (up ++ d.2) (ch i)

theorem ordered_mono {h h' : MdcHeap K} {U : List Nat} : ∀ {t : MdcNode} {up up' : List Nat}, Ordered h up t →
    (∀ a ∈ up, a ∈ up') → (∀ a ∈ U, a ∈ up') → (∀ a ∈ addrs t, ∀ b, Par h' a b → Par h a b ∨ b ∈ U) → Ordered h' up' t := by
  intro t
  induction t with
  | leaf l =>
    intro up up' ho h1 h2 h3 a ha b hb
    rcases h3 a ha b hb with h | h
    · exact h1 _ (ho a ha b h)
    · exact h2 _ h
  | inner d ch ih =>
    intro up up' ho h1 h2 h3
    refine ⟨fun a ha b hb => ?_, fun i => ih i (ho.2 i) ?_ (fun a ha => List.mem_append_left _ (h2 a ha)) ?_⟩
    · rcases h3 a (mem_addrs_inner.2 (Or.inl ha)) b hb with h | h
      · exact h1 _ (ho.1 a ha b h)
      · exact h2 _ h
    · intro a ha
      rcases List.mem_append.1 ha with h | h
      · exact List.mem_append_left _ (h1 a h)
      · exact List.mem_append_right _ h
    · intro a ha b hb
      exact h3 a (mem_addrs_inner.2 (Or.inr ⟨i, ha⟩)) b hb

/-- A vertex of a subdivided node: the solution of the joint system of the vertices it replaces, in the cube. -/
structure VertOK (env : DcEnv K) (options : Qef K 3) (h : MdcHeap K) (c : Cube) (t : MdcNode) (ch : Fin 8 → MdcNode) (v : Nat) : Prop where
  lt : v < h.length
  kids : ∃ (ks : List Nat) (qc : Qef K 3) (w : MdcVertex K), ks ≠ [] ∧ ks.Nodup ∧ (∀ x, x ∈ ks ↔ Par h x v) ∧ (∀ x ∈ ks, ∃ i, x ∈ addrs (ch i)) ∧
    jointQef h env options.reset ks = some qc ∧ h[v]? = some w ∧ Solved env c qc w ∧
    w.normal = env.normalize ((ks.map (vnormalAt h)).foldl Vec3.add ⟨0, 0, 0⟩) ∧
    w.material = ((ks.map (vmatAt h)).foldl FilterFast.add FilterFast.new).select
  linked : ∀ a ∈ leafAddrs t, ∀ b ∈ leafAddrs t, Anc h a v → Anc h b v → EqvGen (TreeRel t) a b

/-- All vertices of subdivided nodes are good; leaf vertices replace nothing. -/
def Clustered (env : DcEnv K) (options : Qef K 3) (h : MdcHeap K) : MdcNode → Cube → Prop
  | .leaf l, _ => ∀ a ∈ l.verts, a < h.length ∧ ∀ b, ¬ Par h b a
  | .inner d ch, c => (∀ v ∈ d.2, VertOK env options h c (.inner d ch) ch v) ∧ ∀ i, Clustered env options h (ch i) (c.octant i)

theorem get_ext {h h' : MdcHeap K} (e : Ext h h') {x : Nat} (hx : x < h.length) : ∃ v p, h[x]? = some v ∧ h'[x]? = some { v with parent := p } := by
  obtain ⟨p, h1, -⟩ := e.get x _ (List.getElem?_eq_getElem hx)
  exact ⟨_, p, List.getElem?_eq_getElem hx, h1⟩

theorem joint_ext {h h' : MdcHeap K} (e : Ext h h') {q : Qef K 3} {ks : List Nat} (hk : ∀ x ∈ ks, x < h.length) : jointQef h' env q ks = jointQef h env q ks := by
  have : qefsOf h' ks = qefsOf h ks := by
    unfold qefsOf
    apply List.filterMap_congr
    intro x hx
    obtain ⟨v, p, h1, h2⟩ := get_ext e (hk x hx)
    rw [h1, h2]; rfl
  unfold jointQef
  rw [this]

theorem vmat_ext {h h' : MdcHeap K} (e : Ext h h') {ks : List Nat} (hk : ∀ x ∈ ks, x < h.length) : ks.map (vmatAt h') = ks.map (vmatAt h) := by
  apply List.map_congr_left
  intro x hx
  obtain ⟨v, p, h1, h2⟩ := get_ext e (hk x hx)
  unfold vmatAt
  rw [h1, h2]; rfl

theorem vnormal_ext {h h' : MdcHeap K} (e : Ext h h') {ks : List Nat} (hk : ∀ x ∈ ks, x < h.length) : ks.map (vnormalAt h') = ks.map (vnormalAt h) := by
  apply List.map_congr_left
  intro x hx
  obtain ⟨v, p, h1, h2⟩ := get_ext e (hk x hx)
  unfold vnormalAt
  rw [h1, h2]; rfl

theorem vertOK_ext {h h' : MdcHeap K} (e : Ext h h') (ok' : HeapOK h') {c : Cube} {t : MdcNode} {ch : Fin 8 → MdcNode} {v : Nat}
    (hv : VertOK env options h c t ch v) : VertOK env options h' c t ch v := by
  obtain ⟨hlt, ⟨ks, qc, w, k1, k2, k3, k4, k5, k6, k7, k8, k9⟩, hl⟩ := hv
  have hk : ∀ x ∈ ks, x < h.length := fun x hx => par_lt ((k3 x).1 hx)
  obtain ⟨p, e1, -⟩ := e.get v w k6
  refine ⟨ext_lt e hlt, ⟨ks, qc, _, k1, k2, fun x => (k3 x).trans ⟨ext_par e, ext_par_old e ok' hlt⟩, k4, (joint_ext e hk).trans k5, e1, k7, ?_, ?_⟩,
    fun a ha b hb h1 h2 => hl a ha b hb (ext_anc_old e ok' hlt h1) (ext_anc_old e ok' hlt h2)⟩
  · rw [vnormal_ext e hk]; exact k8
  · rw [vmat_ext e hk]; exact k9

theorem clustered_ext {h h' : MdcHeap K} (e : Ext h h') (ok' : HeapOK h') : ∀ {t : MdcNode} {c : Cube}, Clustered env options h t c →
    Clustered env options h' t c := by
  intro t
  induction t with
  | leaf l =>
    intro c hc a ha
    exact ⟨ext_lt e (hc a ha).1, fun b hb => (hc a ha).2 b (ext_par_old e ok' (hc a ha).1 hb)⟩
  | inner d ch ih =>
    intro c hc
    exact ⟨fun v hv => vertOK_ext e ok' (hc.1 v hv), fun i => ih i (hc.2 i)⟩

/-! ### One node -/

/-- Facts on the collected vertices of a node and their clusters. -/
structure NodeFacts (h : MdcHeap K) (calls : List (Axis × (Fin 4 → MdcNode))) (S vs : List Nat) (f : Nat → Nat) (cnt : Nat) : Prop where
  src : ∀ x ∈ vs, ∃ a ∈ S, topOf h a = x
  nodup : vs.Nodup
  mem : ∀ x, x ∈ vs ↔ TopRel h calls x x
  lt : ∀ x ∈ vs, clusterNo vs f x < cnt
  hit : ∀ c < cnt, ∃ x ∈ vs, clusterNo vs f x = c
  same : ∀ x ∈ vs, ∀ y ∈ vs, (clusterNo vs f x = clusterNo vs f y ↔ EqvGen (TopRel h calls) x y)
  old : ∀ x ∈ vs, x < h.length

theorem clusterNode_eq {h : MdcHeap K} (ok : HeapOK h) (hc : Clean h) {S : List Nat} (hS : S.length + 3 ≤ kBadIndex) (hSl : ∀ a ∈ S, a < h.length)
    {ch : Fin 8 → MdcNode} (hcalls : ∀ call ∈ mdcTrav.cellCalls ch, CallSkip call ∨ ∃ A, CallTo call A ∧ ∀ i, A i ∈ S) (lo : IVec3) (k : Nat) (q : Qef K 3) :
    ∃ vs f cnt, NodeFacts h (mdcTrav.cellCalls ch) S vs f cnt ∧ vs.length ≤ S.length ∧
      (∀ q' h' list, mdcClusterNode env ch lo k q h = some ((q', h'), list) → q' = q.reset ∧ list = List.range' h.length cnt ∧
        (∀ x ∈ vs, ∀ v, h[x]? = some v → v.qef ≠ none) ∧
        ∃ ws : List (MdcVertex K), h' = mergeH h vs f vs ++ ws ∧ ws.length = cnt ∧ ∀ c (hc : c < ws.length), ∃ qc,
          jointQef h env q.reset (grp vs f c vs) = some qc ∧
          mdcSolveVertex env lo k qc (((grp vs f c vs).map (vmatAt h)).foldl FilterFast.add FilterFast.new)
            (((grp vs f c vs).map (vnormalAt h)).foldl Vec3.add ⟨0, 0, 0⟩) MdcVertex.new = some ws[c]) ∧
      ((∀ x ∈ vs, ∃ v, h[x]? = some v ∧ v.qef ≠ none) → (∀ c < cnt, ∃ qc, jointQef h env q.reset (grp vs f c vs) = some qc ∧
          ∃ w, mdcSolveVertex env lo k qc (((grp vs f c vs).map (vmatAt h)).foldl FilterFast.add FilterFast.new)
            (((grp vs f c vs).map (vnormalAt h)).foldl Vec3.add ⟨0, 0, 0⟩) MdcVertex.new = some w) →
        ∃ r, mdcClusterNode env ch lo k q h = some r) := by
  obtain ⟨s, a1, a2, a3⟩ := calls_spec ok hc S hS hSl (mdcTrav.cellCalls ch) hcalls
  obtain ⟨rep, depth, c1, c2, c3⟩ := a3.cap
  have hold : ∀ x ∈ s.vertices, ∃ a ∈ S, topOf h a = x := by
    intro x hx
    obtain ⟨c, hc, A, hA, i, j, e, -⟩ := (a2 x).1 hx
    rcases hcalls c hc with h1 | ⟨B, hB, hBS⟩
    · exact absurd h1 (callTo_skip hA)
    · rw [callTo_unique hA hB] at e
      exact ⟨_, hBS i, e⟩
  have hlen : s.vertices.length ≤ S.length := by
    rw [← List.length_map (f := topOf h) (as := S)]
    refine (List.subperm_of_subset a3.nodup ?_).length_le
    intro x hx
    obtain ⟨a, ha, e⟩ := hold x hx
    exact List.mem_map.2 ⟨_, ha, e⟩
  obtain ⟨r, f, b1, b2, b3, b4, b5, b6⟩ := renumber_spec c1 (by omega)
  have hidx : ∀ x ∈ s.vertices, s.vertices.idxOf x < s.dsu.count := fun x hx => by rw [c2]; exact List.idxOf_lt_length_of_mem hx
  have hlt : ∀ x ∈ s.vertices, x < h.length := by
    intro x hx
    obtain ⟨a, ha, rfl⟩ := hold x hx
    exact topOf_lt ok (hSl a ha)
  have hset : ∀ x ∈ s.vertices, r.setIdx[s.vertices.idxOf x]? = some (clusterNo s.vertices f x) := fun x hx => b3 _ (hidx x hx)
  have hcnt : ∀ x ∈ s.vertices, clusterNo s.vertices f x < r.cnt := fun x hx => b5 _ (hidx x hx)
  obtain ⟨m1, m2⟩ := merge_loop (h := h) (vs := s.vertices) (f := f) (env := env) (q := q.reset) (cnt := r.cnt) (setIdx := r.setIdx) a3.nodup hset hcnt hlt
  have hbase : s.heap.length = h.length := by rw [a3.heap, setSurf_length]
  refine ⟨s.vertices, f, r.cnt, ⟨hold, a3.nodup, a2, hcnt, ?_, ?_, hlt⟩, hlen, ?_, ?_⟩
  · intro c hc
    obtain ⟨i, hi, e⟩ := b6 c hc
    rw [c2] at hi
    refine ⟨s.vertices[i], List.getElem_mem hi, ?_⟩
    unfold clusterNo
    rw [List.Nodup.idxOf_getElem a3.nodup]
    exact e
  · intro x hx y hy
    rw [← c3 x hx y hy]
    exact b4 _ (hidx x hx) _ (hidx y hy)
  · intro q' h' list hn
    unfold mdcClusterNode at hn
    simp only [a1, b1, Option.bind_eq_bind, Option.bind_some, hbase] at hn
    rw [a3.heap] at hn
    simp only [Option.bind_eq_some_iff, Option.some.injEq, Prod.mk.injEq] at hn
    obtain ⟨m, e1, H, e2, ⟨rfl, rfl⟩, rfl⟩ := hn
    obtain ⟨n1, n2⟩ := m1 m e1
    have hq := n2.qs
    haveI : Nonempty (Qef K 3) := ⟨q⟩
    choose! qf hq1 hq2 using hq
    have hml : (mergeH h s.vertices f s.vertices).length = h.length := mergeH_length _
    have := (finish_loop (env := env) (lo := lo) (k := k) (hH := n2.heap) hq1 n2.fs n2.avgs).1
    rw [hml] at this
    obtain ⟨ws, w1, w2, w3⟩ := this H e2
    refine ⟨rfl, rfl, n1, ws, w1, w2, fun c hc => ⟨qf c, hq2 c (by omega), w3 c hc⟩⟩
  · intro hqef hj
    unfold mdcClusterNode
    simp only [a1, b1, Option.bind_eq_bind, Option.bind_some, hbase]
    rw [a3.heap]
    obtain ⟨m, e1⟩ := m2 hqef (fun c hc => by obtain ⟨qc, e, -⟩ := hj c hc; rw [e]; exact Option.some_ne_none _)
    obtain ⟨n1, n2⟩ := m1 m e1
    rw [e1]
    have hq := n2.qs
    haveI : Nonempty (Qef K 3) := ⟨q⟩
    choose! qf hq1 hq2 using hq
    have hml : (mergeH h s.vertices f s.vertices).length = h.length := mergeH_length _
    have := (finish_loop (env := env) (lo := lo) (k := k) (hH := n2.heap) hq1 n2.fs n2.avgs).2
    rw [hml] at this
    obtain ⟨H, e2⟩ := this (fun c hc => by
      obtain ⟨qc, e, w, hw⟩ := hj c hc
      rw [hq2 c hc] at e; cases e
      exact ⟨w, hw⟩)
    simp only [Option.bind_some, e2]
    exact ⟨_, rfl⟩

end Isomesh
