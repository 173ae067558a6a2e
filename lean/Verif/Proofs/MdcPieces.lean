import Verif.Proofs.MdcSheet
import Verif.Proofs.Push

/-! The vertex of each piece of the surface, and the result of `contour`. -/

namespace Isomesh
open Spec Relation

set_option linter.unusedSectionVars false
variable {K : Type} [Add K] [_root_.Sub K] [Mul K] [Div K] [Neg K] [Zero K] [One K] [OfNat K 2] [OfScientific K] [NatCast K] [IntCast K]
  [Fabs K] [Elem K] [LinearOrder K] [RoundedLaws K]

variable {env : DcEnv K} {g : Grid K} {options : Qef K 3} {t : MdcNode} {c : Cube} {depth : Nat}

/-- Address of the leaf vertex for a piece. -/
def PieceAt (t : MdcNode) (c : Cube) (x : CellCrossing) (a : Nat) : Prop :=
  ∃ (l : MdcLeaf) (i : Fin 12) (s : Nat), (⟨x.cell, 0⟩, l) ∈ (locate t c).leaves ∧ x.edge = cellEdge x.cell i ∧
    mdcSet l.mask i = s ∧ l.verts[s]? = some a

theorem has_unit (P : IVec3) : Cube.Has ⟨P, 0⟩ P := by
  unfold Cube.Has Cube.side
  simp

theorem leaf_at (ht : MTree g t c depth) {P : IVec3} (hP : c.Has P) : ∃ l, (⟨P, 0⟩, l) ∈ (locate t c).leaves := by
  obtain ⟨x, hx, hP'⟩ := leaf_exists (placed_locate t c (mtree_height ht)) P hP
  have := cube_eq (mtree_leaf ht x hx).1
  obtain ⟨⟨lo, k⟩, l⟩ := x
  simp only [Cube.mk.injEq] at this
  obtain ⟨-, rfl⟩ := this
  refine ⟨l, ?_⟩
  have : P = lo := by
    unfold Cube.Has Cube.side at hP'
    simp only [pow_zero] at hP'
    obtain ⟨x, y, z⟩ := P
    obtain ⟨x', y', z'⟩ := lo
    simp only [IVec3.mk.injEq] at *
    omega
  rw [this]; exact hx

theorem leaf_at_unique (ht : MTree g t c depth) {P : IVec3} {l l' : MdcLeaf} (h : (⟨P, 0⟩, l) ∈ (locate t c).leaves)
    (h' : (⟨P, 0⟩, l') ∈ (locate t c).leaves) : l = l' := by
  have := leaf_unique (placed_locate t c (mtree_height ht)) _ h _ h' P (has_unit P) (has_unit P)
  injection this

theorem leaf_at_has (ht : MTree g t c depth) {P : IVec3} {l : MdcLeaf} (h : (⟨P, 0⟩, l) ∈ (locate t c).leaves) : c.Has P :=
  cubeSub_has (leaf_sub (placed_locate t c (mtree_height ht)) _ h) (has_unit P)

theorem xing_exists (ht : MTree g t c depth) (hin : CubeIn g.maxCoord c) {x : CellCrossing} (hx : x.In g c) : ∃ a, PieceAt t c x a := by
  obtain ⟨l, hl⟩ := leaf_at ht hx.1
  have hok := (mtree_leaf ht _ hl).2.1
  have hci := leaf_cellIn ht hin hl
  obtain ⟨i, e, hi⟩ := (crossingOf_iff hci hok.corners _).1 hx.2
  rw [← (((C27_edge_sets.2 _ (mdcMask_lt l.corners)).2.1 i i.2).1), ← hok.mask] at hi
  obtain ⟨s, a, h1, h2⟩ := leaf_addr hok hi
  exact ⟨a, l, i, s, hl, e, h1, h2⟩

theorem xing_unique (ht : MTree g t c depth) {x : CellCrossing} {a b : Nat} (ha : PieceAt t c x a) (hb : PieceAt t c x b) : a = b := by
  obtain ⟨l, i, s, h1, h2, h3, h4⟩ := ha
  obtain ⟨l', i', s', h1', h2', h3', h4'⟩ := hb
  cases leaf_at_unique ht h1 h1'
  cases cellEdge_inj (h2.symm.trans h2')
  have : s = s' := by omega
  subst this
  exact Option.some.inj (h4.symm.trans h4')

theorem xing_mem {x : CellCrossing} {a : Nat} (ha : PieceAt t c x a) : a ∈ leafAddrs t := by
  obtain ⟨l, i, s, h1, h2, h3, h4⟩ := ha
  exact leaf_in_leafAddrs h1 h4

theorem xing_in (ht : MTree g t c depth) (hin : CubeIn g.maxCoord c) {x : CellCrossing} {a : Nat} (ha : PieceAt t c x a) : x.In g c := by
  obtain ⟨l, i, s, h1, h2, h3, h4⟩ := ha
  have hok := (mtree_leaf ht _ h1).2.1
  refine ⟨leaf_at_has ht h1, (crossingOf_iff (leaf_cellIn ht hin h1) hok.corners _).2 ⟨i, h2, ?_⟩⟩
  rw [← (((C27_edge_sets.2 _ (mdcMask_lt l.corners)).2.1 i i.2).1), ← hok.mask]
  dsimp only
  omega

/-- Every leaf vertex belongs to some piece. -/
theorem xing_of_addr (ht : MTree g t c depth) {a : Nat} (ha : a ∈ leafAddrs t) : ∃ x, PieceAt t c x a := by
  rw [leafAddrs_locate t c, List.mem_flatMap] at ha
  obtain ⟨⟨d, l⟩, hx, ha⟩ := ha
  obtain ⟨s, hs, e⟩ := List.mem_iff_getElem.1 ha
  have h0 := mtree_leaf ht _ hx
  obtain ⟨i, hi⟩ := h0.2.1.hit s hs
  have hd := cube_eq h0.1
  dsimp only at hd
  refine ⟨⟨d.lo, cellEdgeAxis i, mdcPos d.lo i⟩, l, i, s, ?_, rfl, hi, ?_⟩
  · dsimp only; rw [← hd]; exact hx
  · rw [List.getElem?_eq_getElem hs, e]

/-- Pieces of one cell share the vertex iff they belong to one sheet. -/
theorem xing_sheet (ht : MTree g t c depth) (hin : CubeIn g.maxCoord c) {x y : CellCrossing} {a b : Nat} (hn : (leafAddrs t).Nodup)
    (ha : PieceAt t c x a) (hb : PieceAt t c y b) : a = b ↔ x.cell = y.cell ∧ SameSheet g x.cell x.edge y.edge := by
  have hx := xing_in ht hin ha
  have hy := xing_in ht hin hb
  obtain ⟨l, i, s, h1, h2, h3, h4⟩ := ha
  obtain ⟨l', i', s', h1', h2', h3', h4'⟩ := hb
  have hok := (mtree_leaf ht _ h1).2.1
  have hci := leaf_cellIn ht hin h1
  constructor
  · rintro rfl
    have hcell : x.cell = y.cell := by
      by_contra hne
      rw [leafAddrs_locate t c] at hn
      have hd := (List.nodup_flatMap.1 hn).2
      have hlists := List.pairwise_iff_getElem.1 hd
      obtain ⟨m, hm, em⟩ := List.mem_iff_getElem.1 h1
      obtain ⟨m', hm', em'⟩ := List.mem_iff_getElem.1 h1'
      have hmm : m ≠ m' := by
        rintro rfl
        rw [em] at em'
        injection em' with em'
        injection em' with em' _
        exact hne em'
      rcases Nat.lt_or_gt_of_ne hmm with h | h
      · have := hlists m m' hm hm' h
        rw [em, em'] at this
        exact this (List.mem_of_getElem? h4) (List.mem_of_getElem? h4')
      · have := hlists m' m hm' hm h
        rw [em, em'] at this
        exact this (List.mem_of_getElem? h4') (List.mem_of_getElem? h4)
    refine ⟨hcell, ?_⟩
    rw [← hcell] at h1' h2'
    cases leaf_at_unique ht h1 h1'
    rw [h2, h2', sheet_iff hci hok.corners (h2 ▸ hx.2) (by rw [← h2', hcell]; exact hy.2), ← hok.mask, h3, h3']
    have hvn : l.verts.Nodup := by
      rw [leafAddrs_locate t c] at hn
      exact (List.nodup_flatMap.1 hn).1 _ h1
    have b1 := (List.getElem?_eq_some_iff.1 h4)
    have b2 := (List.getElem?_eq_some_iff.1 h4')
    obtain ⟨u1, v1⟩ := b1
    obtain ⟨u2, v2⟩ := b2
    exact congrArg _ ((List.Nodup.getElem_inj_iff hvn).1 (v1.trans v2.symm))
  · rintro ⟨hcell, hs⟩
    rw [← hcell] at h1' h2'
    cases leaf_at_unique ht h1 h1'
    rw [h2, h2', sheet_iff hci hok.corners (h2 ▸ hx.2) (by rw [← h2', hcell]; exact hy.2), ← hok.mask, h3, h3'] at hs
    have : s = s' := by omega
    subst this
    exact Option.some.inj (h4.symm.trans h4')

/-- A crossing edge with all cells around it in the cube. -/
theorem inner_edge {D : Axis} {p : IVec3} : ¬ OnBorder c D p ↔ ∀ i, c.Has (Spec.edgeCorner D p 1 i) := by
  unfold OnBorder
  rw [edgeCorner_cells]
  push Not
  constructor
  · intro h i
    apply h
    fin_cases i <;> simp
  · intro h R hR
    simp only [List.mem_cons, List.not_mem_nil, or_false] at hR
    rcases hR with rfl | rfl | rfl | rfl <;> exact h _

theorem edgeCorner_of (D : Axis) (p : IVec3) (i : Fin 4) : EdgeOfCell (Spec.edgeCorner D p 1 i) D p := by
  rw [← around_iff, edgeCorner_cells]
  fin_cases i <;> simp

theorem of_edgeCorner {D : Axis} {p P : IVec3} (h : EdgeOfCell P D p) : ∃ i, P = Spec.edgeCorner D p 1 i := by
  rw [← around_iff, edgeCorner_cells] at h
  simp only [List.mem_cons, List.not_mem_nil, or_false] at h
  rcases h with rfl | rfl | rfl | rfl
  · exact ⟨0, rfl⟩
  · exact ⟨1, rfl⟩
  · exact ⟨2, rfl⟩
  · exact ⟨3, rfl⟩

theorem edge_piece_in {e : LEdge} (hc : CrossingEdge g e.axis e.at_) (hb : ¬ OnBorder c e.axis e.at_) (i : Fin 4) : (e.seen i).In g c :=
  ⟨inner_edge.1 hb i, hc, edgeCorner_of _ _ i⟩

theorem shared_edge (D : Axis) (p : IVec3) (i : Fin 4) : cellEdge (Spec.edgeCorner D p 1 i) (sharedNo D i) = ⟨D, p⟩ := by
  unfold cellEdge
  rw [shared_axis, shared_pos]

/-- The visits of the traversal are the inner edges. -/
theorem visits_edges (ht : MTree g t c depth) {visits : List (Axis × IVec3 × (Fin 4 → MdcLeaf))}
    (hv : ∀ D p l, (D, p, l) ∈ visits ↔ ∀ i, (⟨Spec.edgeCorner D p 1 i, 0⟩, l i) ∈ (locate t c).leaves) (D : Axis) (p : IVec3) :
    (D, p) ∈ visits.map (fun v => (v.1, v.2.1)) ↔ ¬ OnBorder c D p := by
  rw [inner_edge, List.mem_map]
  constructor
  · rintro ⟨⟨D', p', l⟩, h, e⟩ i
    simp only [Prod.mk.injEq] at e
    obtain ⟨rfl, rfl⟩ := e
    exact leaf_at_has ht ((hv _ _ _).1 h i)
  · intro h
    choose l hl using fun i => leaf_at ht (h i)
    exact ⟨(D, p, l), (hv _ _ _).2 hl, rfl⟩

/-- The vertices joined by the call for a crossing edge are those of its pieces. -/
theorem call_pieces (ht : MTree g t c depth) (hin : CubeIn g.maxCoord c) {D : Axis} {p : IVec3} {l : Fin 4 → MdcLeaf}
    (hl : ∀ i, (⟨Spec.edgeCorner D p 1 i, 0⟩, l i) ∈ (locate t c).leaves) (hc : CrossingEdge g D p) :
    ∃ A, CallTo (D, fun i => .leaf (l i)) A ∧ ∀ i, PieceAt t c (LEdge.seen ⟨D, p⟩ i) (A i) := by
  obtain ⟨A, hA, hB⟩ := (mdc_call_ok ht hin hl).1 hc
  refine ⟨A, hA, fun i => ?_⟩
  obtain ⟨-, s, h1, h2⟩ := hB i
  exact ⟨l i, sharedNo D i, s, hl i, (shared_edge D p i).symm, h1, h2⟩

/-- Linking of leaf vertices in the tree is linking of pieces in the cube. -/
theorem treeRel_pieces (ht : MTree g t c depth) (hin : CubeIn g.maxCoord c) {a b : Nat} :
    TreeRel t a b ↔ ∃ e : LEdge, CrossingEdge g e.axis e.at_ ∧ ¬ OnBorder c e.axis e.at_ ∧
      ∃ i j, PieceAt t c (e.seen i) a ∧ PieceAt t c (e.seen j) b := by
  obtain ⟨visits, h1, h2, h3⟩ := mdc_visits ht
  constructor
  · rintro ⟨call, hcall, A, hA, i, j, rfl, rfl⟩
    rw [h1, List.mem_map] at hcall
    obtain ⟨⟨D, p, l⟩, hv, rfl⟩ := hcall
    have hl := (h3 D p l).1 hv
    have hb := (visits_edges ht h3 D p).1 (List.mem_map.2 ⟨_, hv, rfl⟩)
    by_cases hc : CrossingEdge g D p
    · obtain ⟨A', hA', hB⟩ := call_pieces ht hin hl hc
      cases callTo_unique hA hA'
      exact ⟨⟨D, p⟩, hc, hb, i, j, hB i, hB j⟩
    · exfalso
      obtain ⟨l', e1, s, hs, e2⟩ := (mdc_call_ok ht hin hl).2 hc
      obtain ⟨l'', e1', e2'⟩ := hA
      obtain ⟨s', e3, -⟩ := e2' 0
      have : l' 0 = l'' 0 := by have := (e1 0).symm.trans (e1' 0); injection this
      rw [this] at e2
      rw [e2] at e3
      have := Option.some.inj e3
      omega
  · rintro ⟨⟨D, p⟩, hc, hb, i, j, hi, hj⟩
    choose l hl using fun i => leaf_at ht (inner_edge.1 hb i)
    have hv : (D, p, l) ∈ visits := (h3 D p l).2 hl
    obtain ⟨A, hA, hB⟩ := call_pieces ht hin hl hc
    refine ⟨_, by rw [h1]; exact List.mem_map.2 ⟨_, hv, rfl⟩, A, hA, i, j, xing_unique ht (hB i) hi, xing_unique ht (hB j) hj⟩

theorem linked_pieces (ht : MTree g t c depth) (hin : CubeIn g.maxCoord c) (hn : (leafAddrs t).Nodup) {x y : CellCrossing} {a b : Nat}
    (ha : PieceAt t c x a) (hb : PieceAt t c y b) : EqvGen (TreeRel t) a b ↔ Linked g c x y := by
  constructor
  · intro h
    have key : ∀ a b, EqvGen (TreeRel t) a b → ∀ x y, PieceAt t c x a → PieceAt t c y b → Linked g c x y := by
      have same : ∀ a x y, PieceAt t c x a → PieceAt t c y a → Linked g c x y := fun a x y h1 h2 =>
        EqvGen.rel _ _ ⟨xing_in ht hin h1, xing_in ht hin h2, Or.inl ((xing_sheet ht hin hn h1 h2).1 rfl)⟩
      intro a b h
      induction h with
      | rel a b h =>
        intro x y h1 h2
        obtain ⟨e, hc, hbd, i, j, hi, hj⟩ := (treeRel_pieces ht hin).1 h
        refine (same _ _ _ h1 hi).trans _ _ _ ?_
        refine EqvGen.trans _ _ _ ?_ (same _ _ _ hj h2)
        exact EqvGen.rel _ _ ⟨edge_piece_in hc hbd i, edge_piece_in hc hbd j, Or.inr ⟨rfl, hbd⟩⟩
      | refl a => exact fun x y h1 h2 => same a x y h1 h2
      | symm a b _ ih => exact fun x y h1 h2 => (ih y x h2 h1).symm
      | trans a b d hab _ ih1 ih2 =>
        intro x y h1 h2
        by_cases hm : b ∈ leafAddrs t
        · obtain ⟨z, hz⟩ := xing_of_addr ht hm
          exact (ih1 x z h1 hz).trans _ _ _ (ih2 z y hz h2)
        · exfalso
          apply hm
          have : ∀ u v, EqvGen (TreeRel t) u v → (u ∈ leafAddrs t ↔ v ∈ leafAddrs t) := by
            intro u v h
            induction h with
            | rel u v h => have := callRel_sub (mdc_calls_ok ht hin) h; exact ⟨fun _ => this.2, fun _ => this.1⟩
            | refl => exact Iff.rfl
            | symm _ _ _ ih => exact ih.symm
            | trans _ _ _ _ _ i1 i2 => exact i1.trans i2
          exact (this _ _ hab).1 (xing_mem h1)
    exact key a b h x y ha hb
  · intro h
    have key : ∀ x y, Linked g c x y → x = y ∨ (x.In g c ∧ y.In g c ∧ ∀ a b, PieceAt t c x a → PieceAt t c y b → EqvGen (TreeRel t) a b) := by
      intro x y h
      induction h with
      | rel x y h =>
        obtain ⟨h1, h2, h3 | ⟨h3, h4⟩⟩ := h
        · exact Or.inr ⟨h1, h2, fun a b ha hb => by rw [(xing_sheet ht hin hn ha hb).2 h3]; exact EqvGen.refl _⟩
        · refine Or.inr ⟨h1, h2, fun a b ha hb => EqvGen.rel _ _ ((treeRel_pieces ht hin).2 ?_)⟩
          obtain ⟨i, hi⟩ := of_edgeCorner h1.2.2
          obtain ⟨j, hj⟩ := of_edgeCorner h2.2.2
          have ex : x = x.edge.seen i := by
            obtain ⟨P, D, p⟩ := x
            simp only [LEdge.seen, CellCrossing.edge] at *
            rw [hi]
          have ey : y = x.edge.seen j := by
            rw [h3]
            obtain ⟨P, D, p⟩ := y
            simp only [LEdge.seen, CellCrossing.edge] at *
            rw [hj]
          exact ⟨x.edge, h1.2.1, h4, i, j, ex ▸ ha, ey ▸ hb⟩
      | refl x => exact Or.inl rfl
      | symm x y _ ih =>
        rcases ih with rfl | ⟨h1, h2, h3⟩
        · exact Or.inl rfl
        · exact Or.inr ⟨h2, h1, fun a b ha hb => (h3 b a hb ha).symm⟩
      | trans x y z _ _ ih1 ih2 =>
        rcases ih1 with rfl | ⟨h1, h2, h3⟩
        · exact ih2
        · rcases ih2 with rfl | ⟨h1', h2', h3'⟩
          · exact Or.inr ⟨h1, h2, h3⟩
          · refine Or.inr ⟨h1, h2', fun a b ha hb => ?_⟩
            obtain ⟨d, hd⟩ := xing_exists ht hin h2
            exact (h3 a d ha hd).trans _ _ _ (h3' d b hd hb)
    rcases key x y h with rfl | ⟨-, -, h3⟩
    · rw [xing_unique ht ha hb]; exact EqvGen.refl _
    · exact h3 a b ha hb

end Isomesh
