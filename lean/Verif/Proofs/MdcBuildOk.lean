import Verif.Proofs.MdcMeshOk
import Verif.Props.DcOctree

/-! What `build` produces. -/

namespace Isomesh
open Spec Relation

set_option linter.unusedSectionVars false
variable {K : Type} [Add K] [_root_.Sub K] [Mul K] [Div K] [Neg K] [Zero K] [One K] [OfNat K 2] [OfScientific K] [NatCast K] [IntCast K]
  [Fabs K] [Elem K] [LinearOrder K] [RoundedLaws K]

variable {env : DcEnv K} {g : Grid K} {options : Qef K 3}

theorem crossingCells_finite (g : Grid K) (c : Cube) : {P | c.Has P ∧ CrossingCell g P}.Finite :=
  (cubeCells c).finite_toSet.subset fun _ hP => mem_cubeCells.2 hP.1

/-- At most four vertices for each crossing cell. -/
theorem leafAddrs_crossing {t : MdcNode} {c : Cube} {depth : Nat} (ht : MTree g t c depth) (hin : CubeIn g.maxCoord c) :
    (leafAddrs t).length ≤ 4 * crossingCells g c := by
  classical
  rw [leafAddrs_locate t c]
  have hnd : ((locate t c).leaves.map fun x => x.1.lo).Nodup := by
    have h1 := leafCubes_nodup (placed_locate t c (mtree_height ht))
    unfold leafCubes at h1
    have h2 : ((locate t c).leaves.map fun x => x.1.lo) = (((locate t c).leaves.map fun x => x.1)).map fun d => d.lo := by
      rw [List.map_map]; rfl
    rw [h2]
    refine List.Nodup.map_on ?_ h1
    intro a ha b hb e
    obtain ⟨x, hx, rfl⟩ := List.mem_map.1 ha
    obtain ⟨y, hy, rfl⟩ := List.mem_map.1 hb
    rw [cube_eq (mtree_leaf ht x hx).1, cube_eq (mtree_leaf ht y hy).1, e]
  have hsub : ∀ x ∈ (locate t c).leaves, x.2.verts ≠ [] → x.1.lo ∈ {P | c.Has P ∧ CrossingCell g P} := by
    intro x hx hne
    have h0 := mtree_leaf ht x hx
    have hpos : 0 < x.2.verts.length := List.length_pos_iff.2 hne
    obtain ⟨i, hi⟩ := h0.2.1.hit 0 hpos
    have hci := leaf_cellIn ht hin hx
    have hx' : (⟨x.1.lo, 0⟩, x.2) ∈ (locate t c).leaves := by rw [← cube_eq h0.1]; exact hx
    refine ⟨leaf_at_has ht hx', hci, cellEdgeAxis i, mdcPos x.1.lo i, ?_, mdc_edge_iff.2 ⟨i, rfl, rfl⟩⟩
    rw [← set_crossing hci h0.2.1.corners, ← h0.2.1.mask, hi]
    simp
  have hle : ∀ x ∈ (locate t c).leaves, x.2.verts.length ≤ 4 := fun x hx => (mtree_leaf ht x hx).2.1.le
  have key : ∀ L : List (Cube × MdcLeaf), (∀ x ∈ L, x.2.verts.length ≤ 4) →
      (L.flatMap (·.2.verts)).length ≤ 4 * (L.filter fun x => decide (x.2.verts ≠ [])).length := by
    intro L hL
    induction L with
    | nil => simp
    | cons x L ih =>
      have h1 := hL x List.mem_cons_self
      have h2 := ih fun y hy => hL y (List.mem_cons_of_mem _ hy)
      rw [List.flatMap_cons, List.length_append, List.filter_cons]
      split_ifs with hx
      · rw [List.length_cons]; omega
      · have : x.2.verts = [] := by simpa using hx
        rw [this]; simpa using h2
  refine (key _ hle).trans (Nat.mul_le_mul_left 4 ?_)
  have hnd' : (((locate t c).leaves.filter fun x => decide (x.2.verts ≠ [])).map fun x => x.1.lo).Nodup :=
    hnd.sublist (List.Sublist.map _ List.filter_sublist)
  have h3 := Set.ncard_le_ncard (s := ((((locate t c).leaves.filter fun x => decide (x.2.verts ≠ [])).map fun x => x.1.lo).toFinset : Set IVec3))
    (t := {P | c.Has P ∧ CrossingCell g P}) (by
      intro P hP
      simp only [List.coe_toFinset, List.mem_map, List.mem_filter, Set.mem_ofPred_eq, decide_eq_true_eq] at hP
      obtain ⟨x, ⟨hx, hne⟩, rfl⟩ := hP
      exact hsub x hx hne) (crossingCells_finite g c)
  rw [Set.ncard_coe_finset, List.toFinset_card_of_nodup hnd', List.length_map] at h3
  exact h3

/-- Facts on the heap after `buildNode`. -/
theorem built_heap {h : MdcHeap K} {t : MdcNode} {c : Cube} {depth : Nat} (hb : Built env g options [] h t c depth) :
    HeapOK h ∧ Clean h ∧ Fresh h t ∧ (leafAddrs t).Nodup := by
  have hL : leafAddrs t = List.range' 0 h.length := by have := hb.addrs; simpa using this
  have hv : ∀ (a : Nat) (v : MdcVertex K), h[a]? = some v → v.parent = none ∧ v.surfaceIdx = kBadIndex := by
    intro a v hv
    have ha : a ∈ leafAddrs t := by
      rw [hL, List.mem_range'_1]
      have := (List.getElem?_eq_some_iff.1 hv).1
      omega
    rw [leafAddrs_locate t c, List.mem_flatMap] at ha
    obtain ⟨x, hx, ha⟩ := ha
    obtain ⟨s, hs⟩ := List.getElem?_of_mem ha
    obtain ⟨v', e, hl⟩ := hb.verts x hx s a hs
    rw [hv] at e; cases e
    exact ⟨hl.parent, hl.surface⟩
  have hp : ∀ a b, ¬ Par h a b := by
    rintro a b ⟨v, h1, h2⟩
    rw [(hv a v h1).1] at h2; cases h2
  refine ⟨fun a b hab => absurd hab (hp a b), fun a v hav => (hv a v hav).2, ⟨?_, fun a _ b => hp a b, fun a _ b => hp b a⟩, ?_⟩
  · intro a ha
    rw [hL, List.mem_range'_1] at ha
    omega
  · rw [hL]; exact List.nodup_range'

/-- `build` produces a good octree. -/
theorem mdcBuild_good (hg : Filled g) {o o' : MdcOctree K} {solver q' : Qef K 3} (hin : CubeIn g.maxCoord (rootCube o.level))
    (hsz : 4 * crossingCells g (rootCube o.level) + 3 < 2 ^ 32) (hb : o.build env g solver = some (q', o')) :
    MdcGood env g solver o'.heap o'.root (rootCube o.level) ∧ o'.level = o.level ∧ o'.globalPos = o.globalPos ∧
      o'.globalScale = o.globalScale := by
  unfold MdcOctree.build at hb
  have hin' := hin
  rw [← rootCube_eq] at hin'
  cases h1 : mdcBuildNode env g o.level 0 (rootCorner o.level) (solver, []) with
  | none => rw [h1] at hb; cases hb
  | some r =>
    obtain ⟨⟨q1, heap1⟩, n1⟩ := r
    rw [h1] at hb
    obtain ⟨ho, hB⟩ := mdcBuildNode_ok hg (options := solver) o.level 0 (rootCorner o.level) solver q1 [] heap1 n1 hin' (sameOptions_refl _) h1
    dsimp only at hb
    cases h2 : mdcClusterCell env n1 (rootCorner o.level) o.level (q1, heap1) with
    | none => rw [h2] at hb; cases hb
    | some r2 =>
      obtain ⟨⟨q2, heap2⟩, n2⟩ := r2
      rw [h2] at hb
      simp only [Option.some.injEq, Prod.mk.injEq] at hb
      obtain ⟨rfl, rfl⟩ := hb
      obtain ⟨b1, b2, b3, b4⟩ := built_heap hB
      have hlen := leafAddrs_crossing hB.tree hin'
      rw [rootCube_eq] at hlen
      obtain ⟨-, hC⟩ := mdcClusterCell_ok (options := solver) n1 ⟨rootCorner o.level, o.level⟩ 0 q1 q2 heap1 heap2 n2 hB.tree hin' b1 b2 b3 b4
        (by simp only [kBadIndex]; omega) ho h2
      have hLeq := clu_leafAddrs hC
      refine ⟨?_, rfl, rfl, rfl⟩
      rw [← rootCube_eq]
      dsimp only
      refine ⟨hC.ok, hC.tree, hC.nodup, hC.ordered, hC.cl, by rw [hLeq]; exact hC.top, by rw [hLeq]; exact b4, by rw [hLeq]; omega, ?_⟩
      intro x hx s a ha
      rw [hC.loc] at hx
      obtain ⟨v, e, hv⟩ := hB.verts x hx s a ha
      obtain ⟨p, e', -⟩ := hC.ext.get a v e
      exact ⟨v, _, hv, e', rfl, rfl, rfl, rfl, rfl⟩

/-- `build` completes. -/
theorem mdcBuild_total (hg : Filled g) {o : MdcOctree K} {solver : Qef K 3} (hin : CubeIn g.maxCoord (rootCube o.level))
    (hp : 0 < solver.pinvTolerance) (hsz : 48 * crossingCells g (rootCube o.level) < 2 ^ 30) :
    ∃ r, o.build env g solver = some r := by
  have hin' := hin
  rw [← rootCube_eq] at hin'
  obtain ⟨⟨⟨q1, heap1⟩, n1⟩, h1⟩ := mdcBuildNode_total (env := env) hg o.level 0 (rootCorner o.level) solver [] hin' hp
  obtain ⟨ho, hB⟩ := mdcBuildNode_ok hg (options := solver) o.level 0 (rootCorner o.level) solver q1 [] heap1 n1 hin' (sameOptions_refl _) h1
  obtain ⟨b1, b2, b3, b4⟩ := built_heap hB
  have hlen := leafAddrs_crossing hB.tree hin'
  rw [rootCube_eq] at hlen
  have hbase : BaseQ heap1 n1 := by
    intro a ha
    rw [leafAddrs_locate n1 ⟨rootCorner o.level, o.level⟩, List.mem_flatMap] at ha
    obtain ⟨x, hx, ha⟩ := ha
    obtain ⟨s, hs⟩ := List.getElem?_of_mem ha
    obtain ⟨v, e, hl⟩ := hB.verts x hx s a hs
    obtain ⟨es, q1, c1, c2, -, -, -, c3, c4, c5, c6, -⟩ := hl.fit
    have hne : 0 < es.length := List.length_pos_iff.2 c1
    obtain ⟨st, d1, d2⟩ := solved_count c6 c3 (by omega) (by omega) (by rw [c5.1]; exact hp)
    exact ⟨v, st, e, d1, by omega, by omega⟩
  obtain ⟨⟨⟨q2, heap2⟩, n2⟩, h2⟩ := mdcClusterCell_total (env := env) hp n1 ⟨rootCorner o.level, o.level⟩ 0 q1 heap1 hB.tree hin' b1 b2 b3 b4 (by omega) ho hbase
  unfold MdcOctree.build
  rw [h1]
  dsimp only
  rw [h2]
  exact ⟨_, rfl⟩

end Isomesh
