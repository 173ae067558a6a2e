import Verif.Proofs.MdcLeaf

/-! The tree built by `MDC_Octree::buildNode` (before clustering). -/

namespace Isomesh
open Spec

set_option linter.unusedSectionVars false
variable {K : Type} [Add K] [_root_.Sub K] [Mul K] [Div K] [Neg K] [Zero K] [One K] [OfNat K 2] [OfScientific K] [NatCast K] [IntCast K]
  [Fabs K] [Elem K] [LinearOrder K] [RoundedLaws K]

variable {env : DcEnv K}

theorem mapM_range {β : Type} (f : Nat → Option β) (n : Nat) (r : List β) : (List.range n).mapM f = some r ↔
    r.length = n ∧ ∀ i (h : i < r.length), f i = some r[i] := by
  have key : ∀ (l : List Nat) (r : List β), l.mapM f = some r ↔ List.Forall₂ (fun a b => f a = some b) l r := by
    intro l
    induction l with
    | nil => intro r; simp [List.mapM_nil, eq_comm]
    | cons a l ih =>
      intro r
      rw [List.mapM_cons]
      simp only [Option.bind_eq_bind, Option.bind_eq_some_iff, Option.pure_def, Option.some.injEq]
      constructor
      · rintro ⟨b, h1, r', h2, rfl⟩; exact List.Forall₂.cons h1 ((ih _).1 h2)
      · intro h
        cases h with
        | cons h1 h2 => exact ⟨_, h1, _, (ih _).2 h2, rfl⟩
  rw [key, List.forall₂_iff_get]
  simp only [List.length_range, List.get_eq_getElem, List.getElem_range]
  constructor
  · rintro ⟨h1, h2⟩; exact ⟨h1.symm, fun i hi => h2 i (by omega) hi⟩
  · rintro ⟨h1, h2⟩; exact ⟨h1.symm, fun i _ hi => h2 i hi⟩

/-- Facts on a leaf of the cell at `P` that do not depend on the heap. -/
structure MLeafOK (g : Grid K) (P : IVec3) (l : MdcLeaf) : Prop where
  corners : ∀ i, g.at (octCorner P 1 i) = some (l.corners i)
  mask : l.mask = mdcMask l.corners
  lt : ∀ i : Fin 12, mdcSet l.mask i < l.verts.length
  hit : ∀ s < l.verts.length, ∃ i : Fin 12, mdcSet l.mask i = s
  le : l.verts.length ≤ 4

/-- Facts on a tree occupying the cube `c`: all leaves are unit cells. -/
def MTree (g : Grid K) : MdcNode → Cube → Nat → Prop
  | .leaf l, c, depth => c.k = 0 ∧ MLeafOK g c.lo l ∧ l.depth = depth
  | .inner d ch, c, depth => 0 < c.k ∧ d.1 = depth ∧ ∀ i, MTree g (ch i) (c.octant i) (depth + 1)

/-- Addresses of the vertices of the leaves. -/
def leafAddrs (t : MdcNode) : List Nat := t.leaves.flatMap (·.verts)

/-- The vertex was solved for the collected system `q1` in the cube. -/
def Solved (env : DcEnv K) (c : Cube) (q1 : Qef K 3) (v : MdcVertex K) : Prop :=
  ∃ q2 x qs, dcSolveBox env q1 c.lo c.k = some (q2, x) ∧ v.position = Vec3.ofVecN x ∧ q2.eval qef3Rows x = some v.error ∧
    q2.state qef3Rows 30 env.tiny = some qs ∧ v.qef = some qs.2

/-- The vertex of set `s` of a cell. -/
structure LeafVert (env : DcEnv K) (g : Grid K) (options : Qef K 3) (P : IVec3) (corners : Fin 8 → Material) (s : Nat) (v : MdcVertex K) :
    Prop where
  parent : v.parent = none
  surface : v.surfaceIdx = kBadIndex
  fit : ∃ (es : List (GridEdge K)) (q1 : Qef K 3), es ≠ [] ∧ es.length ≤ 12 ∧ es.Nodup ∧
    (∀ e, e ∈ es ↔ InSet g P corners (List.finRange 12) s e) ∧
    runOps qef3Rows 30 env.tiny options (.reset :: es.map (planeOp env.eps)) = some q1 ∧ q1.usedRows ≤ qef3Rows ∧
    q1.pointsCount = es.length ∧ SameOptions options q1 ∧ Solved env ⟨P, 0⟩ q1 v ∧
    v.normal = env.normalize ((es.map fun e => edgeNormal env.eps e.gradient).foldl Vec3.add ⟨0, 0, 0⟩)
  mat : ∃ cs : List (Fin 8), cs.Nodup ∧
    (∀ c, c ∈ cs ↔ ∃ i : Fin 12, mdcSet (mdcMask corners) i = s ∧ solidEnd corners i = c) ∧
    v.material = ((cs.map corners).foldl FilterFast.add FilterFast.new).select

theorem reset_eq {options q : Qef K 3} (h : SameOptions options q) : q.reset = options.reset := by
  obtain ⟨h1, h2, h3, h4⟩ := h
  unfold Qef.reset
  rw [h1, h2, h3, h4]

theorem mdcSolveVertex_some {lo : IVec3} {k : Nat} {q : Qef K 3} {f : FilterFast} {n : Vec3 K} {v v' : MdcVertex K}
    (h : mdcSolveVertex env lo k q f n v = some v') : Solved env ⟨lo, k⟩ q v' ∧ v'.normal = env.normalize n ∧ v'.material = f.select ∧
      v'.parent = v.parent ∧ v'.surfaceIdx = v.surfaceIdx := by
  unfold mdcSolveVertex at h
  simp only [Option.bind_eq_bind, Option.bind_eq_some_iff, Option.some.injEq] at h
  obtain ⟨qv, h1, err, h2, qs, h3, rfl⟩ := h
  exact ⟨⟨qv.1, qv.2, qs, h1, rfl, h2, h3, rfl⟩, rfl, rfl, rfl, rfl⟩

theorem mdcSolveVertex_total {lo : IVec3} {k : Nat} {q : Qef K 3} (f : FilterFast) (n : Vec3 K) (v : MdcVertex K)
    (hq : q.usedRows ≤ qef3Rows) (hc : q.pointsCount ≠ 0) (hp : 0 < q.pinvTolerance) (hB : q.pointsCount < 2 ^ 30) :
    ∃ v', mdcSolveVertex env lo k q f n v = some v' := by
  obtain ⟨q2, x, a1, a2, a3, a4⟩ := solveBox_some (env := env) hq hc hp lo k
  obtain ⟨q3, s, b1, b2, b3⟩ := state_some (tiny := env.tiny) a2 (by rw [a3]; exact hB)
  obtain ⟨err, he⟩ := eval_some a2 x
  unfold mdcSolveVertex
  simp only [a1, b1, he, Option.bind_eq_bind, Option.bind_some]
  exact ⟨_, rfl⟩

theorem sameOptions_reset (q : Qef K 3) : SameOptions q q.reset := ⟨rfl, rfl, rfl, rfl⟩

/-- `buildLeaf` up to the solutions. -/
theorem mdcBuildLeaf_eq {g : Grid K} (h : Filled g) {P : IVec3} (hin : CellIn g.maxCoord P) (depth : Nat) (q : Qef K 3) (heap : MdcHeap K) :
    ∃ (corners : Fin 8 → Material) (st : MdcLeafState K) (es : Fin 4 → List (GridEdge K)) (cs : Fin 4 → List (Fin 8)),
      (∀ i, g.at (octCorner P 1 i) = some (corners i)) ∧
      LoopOK env g P corners (List.finRange 12) (⟨fun _ => q.reset, fun _ => FilterFast.new, fun _ => ⟨0, 0, 0⟩, fun _ => false, 0⟩) st es cs ∧
      mdcBuildLeaf env g depth P (q, heap) = (do
        let vs ← (List.range st.cnt).mapM fun i =>
          if h : i < 4 then mdcSolveVertex env P 0 (st.q ⟨i, h⟩) (st.filter ⟨i, h⟩) (st.avg ⟨i, h⟩) MdcVertex.new else none
        some ((q.reset, heap ++ vs), .leaf ⟨depth, corners, mdcMask corners, List.range' heap.length st.cnt⟩)) := by
  obtain ⟨idx, ms, h1, h2, h3, h4⟩ := oct_cell_corners h hin
  obtain ⟨st, es, cs, a, A⟩ := mdcLeafLoop_eq (env := env) h hin h4 (List.finRange 12) (List.nodup_finRange 12)
    (⟨fun _ => q.reset, fun _ => FilterFast.new, fun _ => ⟨0, 0, 0⟩, fun _ => false, 0⟩) (by simp [Qef.reset]) (by simp [Qef.reset])
  refine ⟨fun i => ms.getD i .Empty, st, es, cs, h4, A, ?_⟩
  unfold mdcBuildLeaf
  simp only [h1, h2, Option.bind_eq_bind, Option.bind_some, a]

theorem loop_cnt {g : Grid K} {P : IVec3} {corners : Fin 8 → Material} {q : Qef K 3} {st : MdcLeafState K} {es : Fin 4 → List (GridEdge K)}
    {cs : Fin 4 → List (Fin 8)}
    (A : LoopOK env g P corners (List.finRange 12) (⟨fun _ => q.reset, fun _ => FilterFast.new, fun _ => ⟨0, 0, 0⟩, fun _ => false, 0⟩) st es cs) :
    st.cnt ≤ 4 ∧ ∀ s < st.cnt, ∃ i : Fin 12, mdcSet (mdcMask corners) i = s := by
  have h27 := C27_edge_sets.2 _ (mdcMask_lt corners)
  rcases A.cnt_hit with e | ⟨i, -, e⟩
  · dsimp only at e; rw [e]; exact ⟨by omega, fun s hs => absurd hs (by omega)⟩
  · have := (h27.2.1 i i.2).2.2
    refine ⟨by omega, fun s hs => ?_⟩
    obtain ⟨j, hj, ej⟩ := h27.2.2.1 i i.2 s (by omega)
    exact ⟨⟨j, hj⟩, ej⟩

theorem loop_edges {g : Grid K} (h : Filled g) {P : IVec3} (hin : CellIn g.maxCoord P) {corners : Fin 8 → Material}
    (hc : ∀ i, g.at (octCorner P 1 i) = some (corners i)) {i : Fin 12} {s : Nat} (hi : mdcSet (mdcMask corners) i = s) :
    ∃ e, InSet g P corners (List.finRange 12) s e := by
  have hcr := (set_crossing hin hc i).1 (by omega)
  obtain ⟨e, he, hl⟩ := (h.edge_iff _ _).2 hcr
  have hax := h.edge_axis _ e he
  exact ⟨e, (mem_edgeList h).2 (by rw [hax]; exact he), i, List.mem_finRange i, hax, hl, hi⟩

theorem mdcBuildLeaf_ok {g : Grid K} (h : Filled g) {P : IVec3} (hin : CellIn g.maxCoord P) {depth : Nat} {q q' : Qef K 3} {heap heap' : MdcHeap K}
    {n : MdcNode} (hb : mdcBuildLeaf env g depth P (q, heap) = some ((q', heap'), n)) {options : Qef K 3} (ho : SameOptions options q) :
    ∃ (l : MdcLeaf) (vs : List (MdcVertex K)), n = .leaf l ∧ heap' = heap ++ vs ∧ MLeafOK g P l ∧ l.depth = depth ∧
      l.verts = List.range' heap.length vs.length ∧ SameOptions options q' ∧
      ∀ s v, vs[s]? = some v → LeafVert env g options P l.corners s v := by
  obtain ⟨corners, st, es, cs, h1, A, h2⟩ := mdcBuildLeaf_eq (env := env) h hin depth q heap
  rw [h2] at hb
  simp only [Option.bind_eq_bind, Option.bind_eq_some_iff, Option.some.injEq, Prod.mk.injEq] at hb
  obtain ⟨vs, hv, ⟨rfl, rfl⟩, rfl⟩ := hb
  obtain ⟨hl, hv⟩ := (mapM_range _ _ _).1 hv
  obtain ⟨hc4, hhit⟩ := loop_cnt A
  refine ⟨_, vs, rfl, rfl, ⟨h1, rfl, ?_, ?_, ?_⟩, rfl, by rw [hl], sameOptions_trans ho (sameOptions_reset q), ?_⟩
  · intro i
    have := A.cnt_lt i (List.mem_finRange i)
    simpa using this
  · intro s hs
    exact hhit s (by simpa using hs)
  · simpa using hc4
  · intro s v hs
    obtain ⟨hs1, rfl⟩ := List.getElem?_eq_some_iff.1 hs
    have hv1 := hv s hs1
    have hs4 : s < 4 := by omega
    rw [dif_pos hs4] at hv1
    obtain ⟨b1, b2, b3, b4, b5⟩ := mdcSolveVertex_some hv1
    have hne : es ⟨s, hs4⟩ ≠ [] := by
      obtain ⟨i, hi⟩ := hhit s (by omega)
      obtain ⟨e, he⟩ := loop_edges h hin h1 hi
      exact List.ne_nil_of_mem ((A.mem ⟨s, hs4⟩ e).2 he)
    refine ⟨b4, b5, ⟨es ⟨s, hs4⟩, st.q ⟨s, hs4⟩, hne, by simpa using A.len ⟨s, hs4⟩, A.nodup _, A.mem ⟨s, hs4⟩, ?_, A.rows _, ?_,
      ?_, b1, ?_⟩, ⟨cs ⟨s, hs4⟩, A.cnodup _, ?_, ?_⟩⟩
    · have := A.ops ⟨s, hs4⟩
      simp only [runOps, List.foldlM_cons, QefOp.apply, Option.bind_eq_bind, Option.bind_some] at this ⊢
      rw [← reset_eq ho]
      exact this
    · rw [A.points]; simp [Qef.reset]
    · exact sameOptions_trans ho (A.options ⟨s, hs4⟩)
    · rw [b2, A.avg]
    · intro c
      rw [A.cmem]
      simp only [List.mem_finRange, true_and]
    · rw [b3, A.filter]

theorem mdcBuildLeaf_total {g : Grid K} (h : Filled g) {P : IVec3} (hin : CellIn g.maxCoord P) (depth : Nat) {q : Qef K 3} (heap : MdcHeap K)
    (hp : 0 < q.pinvTolerance) : ∃ r, mdcBuildLeaf env g depth P (q, heap) = some r := by
  obtain ⟨corners, st, es, cs, h1, A, h2⟩ := mdcBuildLeaf_eq (env := env) h hin depth q heap
  obtain ⟨hc4, hhit⟩ := loop_cnt A
  rw [h2]
  have key : ∀ s (hs : s < st.cnt), ∃ v, (if h : s < 4 then mdcSolveVertex env P 0 (st.q ⟨s, h⟩) (st.filter ⟨s, h⟩) (st.avg ⟨s, h⟩) MdcVertex.new
      else none) = some v := by
    intro s hs
    have hs4 : s < 4 := by omega
    rw [dif_pos hs4]
    have hlen : (st.q ⟨s, hs4⟩).pointsCount = (es ⟨s, hs4⟩).length := by rw [A.points]; simp [Qef.reset]
    have hle : (es ⟨s, hs4⟩).length ≤ 12 := by simpa using A.len ⟨s, hs4⟩
    refine mdcSolveVertex_total _ _ _ (A.rows _) ?_ ?_ (by omega)
    · obtain ⟨i, hi⟩ := hhit s (by omega)
      obtain ⟨e, he⟩ := loop_edges h hin h1 hi
      have := List.length_pos_of_mem ((A.mem ⟨s, hs4⟩ e).2 he)
      omega
    · have := (A.options ⟨s, hs4⟩).1
      dsimp only [Qef.reset] at this
      rw [this]; exact hp
  choose f hf using key
  have : (List.range st.cnt).mapM (fun s => if h : s < 4 then mdcSolveVertex env P 0 (st.q ⟨s, h⟩) (st.filter ⟨s, h⟩) (st.avg ⟨s, h⟩) MdcVertex.new
      else none) = some (List.ofFn fun s : Fin st.cnt => f s s.2) := by
    rw [mapM_range]
    refine ⟨by simp, fun i hi => ?_⟩
    rw [List.getElem_ofFn]
    exact hf i _
  rw [this]
  exact ⟨_, rfl⟩

/-! ### Nodes -/

/-- The vertices of the leaves are in the heap. -/
def LeafVerts (env : DcEnv K) (g : Grid K) (options : Qef K 3) (h : MdcHeap K) (t : MdcNode) (c : Cube) : Prop :=
  ∀ x ∈ (locate t c).leaves, ∀ s a, x.2.verts[s]? = some a → ∃ v, h[a]? = some v ∧ LeafVert env g options x.1.lo x.2.corners s v

theorem leafVerts_prefix {g : Grid K} {options : Qef K 3} {h h' : MdcHeap K} {t : MdcNode} {c : Cube} (hp : h <+: h')
    (hv : LeafVerts env g options h t c) : LeafVerts env g options h' t c := by
  intro x hx s a ha
  obtain ⟨v, h1, h2⟩ := hv x hx s a ha
  refine ⟨v, ?_, h2⟩
  obtain ⟨r, rfl⟩ := hp
  rw [List.getElem?_append_left (List.getElem?_eq_some_iff.1 h1).1]
  exact h1

theorem leaves_inner {N L : Type} (d : N) (ch : Fin 8 → Oct N L) (c : Cube) :
    (locate (.inner d ch) c).leaves = (List.finRange 8).flatMap fun i => (locate (ch i) (c.octant i)).leaves := rfl

theorem leafAddrs_inner (d : Nat × List Nat) (ch : Fin 8 → MdcNode) :
    leafAddrs (.inner d ch) = (List.finRange 8).flatMap fun i => leafAddrs (ch i) := by
  unfold leafAddrs
  rw [Oct.leaves, List.flatMap_assoc]

/-- Result of building a subtree. -/
structure Built (env : DcEnv K) (g : Grid K) (options : Qef K 3) (h h' : MdcHeap K) (t : MdcNode) (c : Cube) (depth : Nat) : Prop where
  pre : h <+: h'
  tree : MTree g t c depth
  addrs : leafAddrs t = List.range' h.length (h'.length - h.length)
  verts : LeafVerts env g options h' t c

theorem threadM_built {S α : Type} (n : Nat) (b : Fin n → S → Option (S × α)) (I : S → Prop) (R : Fin n → S → S → α → Prop)
    (hb : ∀ i s s' a, I s → b i s = some (s', a) → I s' ∧ R i s s' a) {s s' : S} {r : Fin n → α} (hs : I s)
    (h : threadM n b s = some (s', r)) : ∃ σ : Nat → S, σ 0 = s ∧ σ n = s' ∧ (∀ i, i ≤ n → I (σ i)) ∧ ∀ i : Fin n, R i (σ i) (σ (i + 1)) (r i) := by
  induction n generalizing s s' with
  | zero => cases h; exact ⟨fun _ => s, rfl, rfl, fun _ _ => hs, fun i => i.elim0⟩
  | succ n ih =>
    rw [threadM] at h
    split at h
    · cases h
    rename_i s1 a h1
    split at h
    · cases h
    rename_i s2 r' h2
    cases h
    obtain ⟨i1, r1⟩ := hb 0 _ _ _ hs h1
    obtain ⟨σ, e1, e2, e3, e4⟩ := ih (fun i => b i.succ) (fun i => R i.succ) (fun i => hb i.succ) i1 h2
    refine ⟨fun k => match k with | 0 => s | k + 1 => σ k, rfl, e2, ?_, ?_⟩
    · intro i hi
      cases i with
      | zero => exact hs
      | succ i => exact e3 i (by omega)
    · intro i
      refine Fin.cases ?_ (fun i => ?_) i
      · show R 0 s (σ 0) a
        rw [e1]; exact r1
      · exact e4 i

theorem range_concat (len : Nat → Nat) (n : Nat) (A : Fin n → List Nat) (hm : ∀ i : Fin n, len i ≤ len (i + 1))
    (hA : ∀ i : Fin n, A i = List.range' (len i) (len (i + 1) - len i)) :
    len 0 ≤ len n ∧ (List.finRange n).flatMap A = List.range' (len 0) (len n - len 0) := by
  induction n generalizing len with
  | zero => exact ⟨le_refl _, by simp⟩
  | succ n ih =>
    obtain ⟨h1, h2⟩ := ih (fun k => len (k + 1)) (fun i => A i.succ) (fun i => by simpa using hm i.succ)
      (fun i => by simpa using hA i.succ)
    have h0 := hm 0
    have a0 := hA 0
    simp only [Fin.val_zero, zero_add] at h0 a0 h1 h2
    refine ⟨by omega, ?_⟩
    rw [List.finRange_succ, List.flatMap_cons, List.flatMap_map, h2, a0]
    have e : len 1 = len 0 + (len 1 - len 0) := by omega
    rw [show List.range' (len 1) (len (n + 1) - len 1) = List.range' (len 0 + (len 1 - len 0)) (len (n + 1) - len 1) by rw [← e],
      List.range'_append_1]
    congr 1
    omega

theorem mdcBuildNode_ok {g : Grid K} (hg : Filled g) {options : Qef K 3} : ∀ (k depth : Nat) (lo : IVec3) (q q' : Qef K 3) (heap heap' : MdcHeap K)
    (n : MdcNode), CubeIn g.maxCoord ⟨lo, k⟩ → SameOptions options q →
    mdcBuildNode env g k depth lo (q, heap) = some ((q', heap'), n) →
    SameOptions options q' ∧ Built env g options heap heap' n ⟨lo, k⟩ depth := by
  intro k
  induction k with
  | zero =>
    intro depth lo q q' heap heap' n hin ho hb
    obtain ⟨l, vs, rfl, rfl, a1, a2, a3, a4, a5⟩ := mdcBuildLeaf_ok hg (cubeIn_cell hin) hb ho
    refine ⟨a4, ⟨vs, rfl⟩, ⟨rfl, a1, a2⟩, ?_, ?_⟩
    · simp [leafAddrs, Oct.leaves, a3]
    · intro x hx s a ha
      simp only [locate, Oct.leaves, List.mem_singleton] at hx
      subst hx
      simp only [a3] at ha
      obtain ⟨h1, h2⟩ := List.getElem?_eq_some_iff.1 ha
      rw [List.length_range'] at h1
      rw [List.getElem_range'] at h2
      subst h2
      have e : (heap ++ vs)[heap.length + 1 * s]? = some vs[s] := by
        rw [one_mul, List.getElem?_append_right (by omega), Nat.add_sub_cancel_left]
        exact List.getElem?_eq_getElem h1
      exact ⟨_, e, a5 s _ (List.getElem?_eq_getElem h1)⟩
  | succ k ih =>
    intro depth lo q q' heap heap' n hin ho hb
    rw [mdcBuildNode] at hb
    split at hb
    · cases hb
    rename_i s ch hth
    cases hb
    obtain ⟨σ, e1, e2, e3, e4⟩ := threadM_built 8 _ (fun s : Qef K 3 × MdcHeap K => SameOptions options s.1)
      (fun i s s' n => Built env g options s.2 s'.2 n ⟨octCorner lo (2 ^ k) i, k⟩ (depth + 1)) (by
        intro i s s' n hs hb
        rw [childCorner_eq] at hb
        exact ih (depth + 1) _ _ _ _ _ n (cubeIn_octant hin i) hs hb) (by exact ho) hth
    have hpre : ∀ i j, i ≤ j → j ≤ 8 → (σ i).2 <+: (σ j).2 := by
      intro i j hij hj
      induction j with
      | zero => rw [Nat.le_zero.1 hij]
      | succ j ihj =>
        rcases Nat.lt_or_ge i (j + 1) with h | h
        · exact (ihj (by omega) (by omega)).trans (e4 ⟨j, by omega⟩).pre
        · rw [show i = j + 1 by omega]
    have hcube : ∀ i, (⟨lo, k + 1⟩ : Cube).octant i = ⟨octCorner lo (2 ^ k) i, k⟩ := fun i => rfl
    refine ⟨by have := e3 8 (le_refl _); rw [e2] at this; exact this, ?_, ⟨by simp, rfl, fun i => (e4 i).tree⟩, ?_, ?_⟩
    · have := hpre 0 8 (by omega) (le_refl _)
      rwa [e1, e2] at this
    · rw [leafAddrs_inner]
      have := (range_concat (fun i => (σ i).2.length) 8 (fun i => leafAddrs (ch i)) (fun i => (e4 i).pre.length_le) (fun i => (e4 i).addrs)).2
      simp only [e1, e2] at this
      exact this
    · intro x hx s a ha
      rw [leaves_inner, List.mem_flatMap] at hx
      obtain ⟨i, -, hi⟩ := hx
      have hp := hpre (i + 1) 8 (by omega) (le_refl _)
      rw [e2] at hp
      exact leafVerts_prefix hp (e4 i).verts x hi s a ha

theorem mdcBuildNode_total {g : Grid K} (hg : Filled g) : ∀ (k depth : Nat) (lo : IVec3) (q : Qef K 3) (heap : MdcHeap K),
    CubeIn g.maxCoord ⟨lo, k⟩ → 0 < q.pinvTolerance → ∃ r, mdcBuildNode env g k depth lo (q, heap) = some r := by
  intro k
  induction k with
  | zero => intro depth lo q heap hin hp; exact mdcBuildLeaf_total hg (cubeIn_cell hin) depth heap hp
  | succ k ih =>
    intro depth lo q heap hin hp
    obtain ⟨s', r, h1, -⟩ := threadM_total (fun s : Qef K 3 × MdcHeap K => SameOptions q s.1) 8 (fun _ _ => True)
      (fun i s => mdcBuildNode env g k (depth + 1) (childCorner lo k i) s) (by
        rintro i ⟨q1, h1⟩ ho
        have ho' : SameOptions q q1 := ho
        rw [childCorner_eq]
        obtain ⟨⟨⟨q2, h2⟩, n⟩, hr⟩ := ih (depth + 1) (octCorner lo (2 ^ k) i) q1 h1 (cubeIn_octant hin i) (by rw [ho'.1]; exact hp)
        exact ⟨_, _, hr, (mdcBuildNode_ok hg k _ _ _ _ _ _ _ (cubeIn_octant hin i) ho' hr).1, trivial⟩) (s := (q, heap)) (sameOptions_refl q)
    rw [mdcBuildNode, h1]
    exact ⟨_, rfl⟩

end Isomesh
