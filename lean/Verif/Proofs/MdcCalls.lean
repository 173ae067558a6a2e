import Verif.Proofs.MdcCluster
import Verif.Props.Octree
import Verif.Proofs.DcContour

/-! The calls made while traversing the tree of an `MDC_Octree`: one for each unit edge inside the cube. -/

namespace Isomesh
open Spec Relation

set_option linter.unusedSectionVars false
variable {K : Type} [Add K] [_root_.Sub K] [Mul K] [Div K] [Neg K] [Zero K] [One K] [OfNat K 2] [OfScientific K] [NatCast K] [IntCast K]
  [Fabs K] [Elem K] [LinearOrder K] [RoundedLaws K]

variable {g : Grid K} {t : MdcNode} {c : Cube} {depth : Nat}

theorem mtree_height : ∀ {t : MdcNode} {c : Cube} {depth : Nat}, MTree g t c depth → t.height ≤ c.k := by
  intro t
  induction t with
  | leaf l => intro c depth _; simp [Oct.height]
  | inner d ch ih =>
    intro c depth ht
    obtain ⟨h1, -, h2⟩ := ht
    rw [Oct.height]
    have : (Finset.univ.sup fun i => (ch i).height) ≤ c.k - 1 := Finset.sup_le fun i _ => ih i (h2 i)
    omega

theorem mtree_leaf : ∀ {t : MdcNode} {c : Cube} {depth : Nat}, MTree g t c depth → ∀ x ∈ (locate t c).leaves,
    x.1.k = 0 ∧ MLeafOK g x.1.lo x.2 ∧ x.2.depth = depth + c.k := by
  intro t
  induction t with
  | leaf l =>
    intro c depth ht x hx
    simp only [locate, Oct.leaves, List.mem_singleton] at hx
    subst hx
    exact ⟨ht.1, ht.2.1, by rw [ht.1]; exact ht.2.2⟩
  | inner d ch ih =>
    intro c depth ht x hx
    rw [leaves_inner, List.mem_flatMap] at hx
    obtain ⟨i, -, hi⟩ := hx
    obtain ⟨h1, -, h2⟩ := ht
    obtain ⟨a1, a2, a3⟩ := ih i (h2 i) x hi
    have : (c.octant i).k = c.k - 1 := rfl
    exact ⟨a1, a2, by omega⟩

theorem cube_eq {a : Cube} (h : a.k = 0) : a = ⟨a.lo, 0⟩ := by obtain ⟨lo, k⟩ := a; cases h; rfl

theorem unit_sub {p : IVec3} {a : Cube} (h : a.k = 0) (hs : Cube.Sub ⟨p, 0⟩ a) : a = ⟨p, 0⟩ := by
  obtain ⟨⟨x, y, z⟩, k⟩ := a
  cases h
  obtain ⟨px, py, pz⟩ := p
  simp only [Cube.Sub, Cube.side, pow_zero] at hs
  congr 1
  simp only [IVec3.mk.injEq]
  omega

theorem mtree_minimal (ht : MTree g t c depth) (D : Axis) (p : IVec3) (j : Nat) (q : Fin 4 → Cube × MdcLeaf) :
    MinimalEdge t c D p j q ↔ j = 0 ∧ (∀ i, (q i).1 = ⟨Spec.edgeCorner D p 1 i, 0⟩) ∧ ∀ i, q i ∈ (locate t c).leaves := by
  constructor
  · intro h
    have hk : ∀ i, (q i).1.k = 0 := fun i => (mtree_leaf ht _ (h.leaf i)).1
    obtain ⟨i, hi⟩ := h.least
    have hj : j = 0 := by have := hk i; rw [hi] at this; exact this
    subst hj
    refine ⟨rfl, fun i => ?_, h.leaf⟩
    have := unit_sub (hk i) (h.contains i)
    simpa using this
  · rintro ⟨rfl, h1, h2⟩
    refine ⟨h2, fun i => ?_, ⟨0, by rw [h1]; simp⟩⟩
    rw [h1]
    simpa using cubeSub_refl _

/-- The calls: one for each edge with all four cells in the cube. -/
theorem mdc_visits (ht : MTree g t c depth) :
    ∃ visits : List (Axis × IVec3 × (Fin 4 → MdcLeaf)),
      mdcTrav.cellProc t = visits.map (fun v => (v.1, fun i => Oct.leaf (v.2.2 i))) ∧
      (visits.map fun v => (v.1, v.2.1)).Nodup ∧
      ∀ D p l, (D, p, l) ∈ visits ↔ ∀ i, (⟨Spec.edgeCorner D p 1 i, 0⟩, l i) ∈ (locate t c).leaves := by
  obtain ⟨vis, h1, h2, h3⟩ := C21_mdc_minimal_edges t c (mtree_height ht)
  refine ⟨vis.map fun v => (v.1, v.2.1, fun i => (v.2.2.2 i).2), ?_, ?_, ?_⟩
  · rw [h1, List.map_map]; rfl
  · rw [List.map_map]
    have hz : ∀ v ∈ vis, v.2.2.1 = 0 := by
      rintro ⟨D, p, j, q⟩ hv
      exact ((mtree_minimal ht D p j q).1 ((h3 D p j q).1 hv)).1
    have hnd := List.Nodup.of_map _ h2
    rw [List.nodup_map_iff_inj_on hnd] at h2 ⊢
    intro v hv w hw e
    apply h2 v hv w hw
    simp only [Function.comp, Prod.mk.injEq] at e ⊢
    exact ⟨e.1, e.2, by rw [hz v hv, hz w hw]⟩
  · intro D p l
    simp only [List.mem_map, Prod.mk.injEq]
    constructor
    · rintro ⟨⟨D', p', j, q⟩, hv, rfl, rfl, rfl⟩ i
      obtain ⟨-, a1, a2⟩ := (mtree_minimal ht _ _ _ _).1 ((h3 _ _ _ _).1 hv)
      rw [← a1 i]
      exact a2 i
    · intro h
      refine ⟨(D, p, 0, fun i => (⟨Spec.edgeCorner D p 1 i, 0⟩, l i)), (h3 _ _ _ _).2 ((mtree_minimal ht _ _ _ _).2 ⟨rfl, fun _ => rfl, h⟩), rfl, rfl, rfl⟩

theorem shared_lt (D : Axis) (i : Fin 4) : sharedEdge D i < 12 := by cases D <;> revert i <;> decide +kernel

/-- Number of the edge along `D` in the `i`-th cell around it. -/
def sharedNo (D : Axis) (i : Fin 4) : Fin 12 := ⟨sharedEdge D i, shared_lt D i⟩

theorem shared_axis (D : Axis) (i : Fin 4) : cellEdgeAxis (sharedNo D i) = D := by cases D <;> revert i <;> decide +kernel

theorem shared_off (D : Axis) (i : Fin 4) (a : Axis) : (edgeOff D i).get a + (octOff (cellEdgeEnd (sharedNo D i) 0)).get a = 0 := by
  revert i; cases D <;> cases a <;> decide +kernel

theorem shared_pos (D : Axis) (p : IVec3) (i : Fin 4) : mdcPos (Spec.edgeCorner D p 1 i) (sharedNo D i) = p := by
  unfold mdcPos
  apply ivec_ext
  intro a
  rw [octCorner_get, edgeCorner_get]
  have := shared_off D i a
  omega

theorem leaf_crossing {D : Axis} {p : IVec3} {i : Fin 4} {l : MdcLeaf} (hl : MLeafOK g (Spec.edgeCorner D p 1 i) l)
    (hin : CellIn g.maxCoord (Spec.edgeCorner D p 1 i)) : 0 ≤ mdcSet l.mask (sharedNo D i) ↔ CrossingEdge g D p := by
  rw [hl.mask, set_crossing hin hl.corners, shared_axis, shared_pos]

theorem shared_set {D : Axis} {P : IVec3} {i : Fin 4} {l : MdcLeaf} (hl : MLeafOK g P l) :
    mdcSetIndex l.mask (sharedEdge D i) = some (mdcSet l.mask (sharedNo D i)) := by
  rw [hl.mask]; exact mdcSetIndex_eq (mdcMask_lt _) (sharedNo D i)

/-- The address of the vertex of a leaf for an edge crossing the surface. -/
theorem leaf_addr {P : IVec3} {l : MdcLeaf} (hl : MLeafOK g P l) {i : Fin 12} (h0 : 0 ≤ mdcSet l.mask i) :
    ∃ (s : Nat) (a : Nat), mdcSet l.mask i = s ∧ l.verts[s]? = some a := by
  have := hl.lt i
  obtain ⟨s, hs⟩ := Int.eq_ofNat_of_zero_le h0
  rw [hs] at this
  have h1 : s < l.verts.length := by omega
  exact ⟨s, l.verts[s], hs, List.getElem?_eq_getElem h1⟩

theorem leaf_in_leafAddrs {x : Cube × MdcLeaf} (hx : x ∈ (locate t c).leaves) {s a : Nat} (ha : x.2.verts[s]? = some a) : a ∈ leafAddrs t := by
  unfold leafAddrs
  rw [List.mem_flatMap]
  refine ⟨x.2, ?_, List.mem_of_getElem? ha⟩
  rw [← leaves_locate t c]
  exact List.mem_map_of_mem hx

theorem leaf_cellIn (ht : MTree g t c depth) (hin : CubeIn g.maxCoord c) {x : Cube × MdcLeaf} (hx : x ∈ (locate t c).leaves) :
    CellIn g.maxCoord x.1.lo := by
  apply cubeIn_cell
  have h1 := leaf_sub (placed_locate t c (mtree_height ht)) x hx
  rw [cube_eq (mtree_leaf ht x hx).1] at h1
  exact fun p hp => hin p (closed_sub h1 hp)

/-- Every call is for a crossing edge, with a vertex of each of the four leaves, or is skipped. -/
theorem mdc_call_ok (ht : MTree g t c depth) (hin : CubeIn g.maxCoord c) {D : Axis} {p : IVec3} {l : Fin 4 → MdcLeaf}
    (hl : ∀ i, (⟨Spec.edgeCorner D p 1 i, 0⟩, l i) ∈ (locate t c).leaves) :
    (CrossingEdge g D p → ∃ A, CallTo (D, fun i => .leaf (l i)) A ∧ ∀ i, A i ∈ leafAddrs t ∧
      ∃ s : Nat, mdcSet (l i).mask (sharedNo D i) = s ∧ (l i).verts[s]? = some (A i)) ∧
    (¬ CrossingEdge g D p → CallSkip (D, fun i => .leaf (l i))) := by
  have hok : ∀ i, MLeafOK g (Spec.edgeCorner D p 1 i) (l i) := fun i => (mtree_leaf ht _ (hl i)).2.1
  have hci : ∀ i, CellIn g.maxCoord (Spec.edgeCorner D p 1 i) := fun i => leaf_cellIn ht hin (hl i)
  constructor
  · intro hc
    have : ∀ i, ∃ (s : Nat) (a : Nat), mdcSet (l i).mask (sharedNo D i) = s ∧ (l i).verts[s]? = some a :=
      fun i => leaf_addr (hok i) ((leaf_crossing (hok i) (hci i)).2 hc)
    choose s A h1 h2 using this
    refine ⟨A, ⟨l, fun i => rfl, fun i => ⟨s i, ?_, h2 i⟩⟩, fun i => ⟨leaf_in_leafAddrs (hl i) (h2 i), s i, h1 i, h2 i⟩⟩
    rw [shared_set (hok i), h1 i]
  · intro hc
    refine ⟨l, fun i => rfl, mdcSet (l 0).mask (sharedNo D 0), ?_, shared_set (hok 0)⟩
    have := (leaf_crossing (hok 0) (hci 0)).not.2 hc
    omega

theorem mdc_calls_ok (ht : MTree g t c depth) (hin : CubeIn g.maxCoord c) : ∀ call ∈ mdcTrav.cellProc t,
    CallSkip call ∨ ∃ A, CallTo call A ∧ ∀ i, A i ∈ leafAddrs t := by
  obtain ⟨vis, h1, -, h3⟩ := mdc_visits ht
  intro call hcall
  rw [h1, List.mem_map] at hcall
  obtain ⟨⟨D, p, l⟩, hv, rfl⟩ := hcall
  obtain ⟨a1, a2⟩ := mdc_call_ok ht hin ((h3 D p l).1 hv)
  by_cases hc : CrossingEdge g D p
  · obtain ⟨A, hA, hB⟩ := a1 hc
    exact Or.inr ⟨A, hA, fun i => (hB i).1⟩
  · exact Or.inl (a2 hc)

/-- Number of vertices of the leaves. -/
theorem leafAddrs_length (ht : MTree g t c depth) : (leafAddrs t).length ≤ 4 * 8 ^ c.k := by
  have h1 : ∀ l ∈ t.leaves, l.verts.length ≤ 4 := by
    intro l hl
    rw [← leaves_locate t c, List.mem_map] at hl
    obtain ⟨x, hx, rfl⟩ := hl
    exact (mtree_leaf ht x hx).2.1.le
  have h2 : (leafAddrs t).length ≤ t.leaves.length * 4 := by
    unfold leafAddrs
    rw [List.length_flatMap]
    have := List.sum_le_card_nsmul (t.leaves.map fun l => l.verts.length) 4 (by
      intro x hx
      obtain ⟨l, hl, rfl⟩ := List.mem_map.1 hx
      exact h1 l hl)
    simpa using this
  have h3 := leaves_length t
  have h4 : (8 : Nat) ^ t.height ≤ 8 ^ c.k := Nat.pow_le_pow_right (by norm_num) (mtree_height ht)
  omega

end Isomesh
