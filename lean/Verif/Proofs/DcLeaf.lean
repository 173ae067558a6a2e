import Verif.Proofs.DcBuild

/-! Leaves of size 1 built by `DC_Octree::buildLeaf`. -/

namespace Isomesh
open Spec

set_option linter.unusedSectionVars false
variable {K : Type} [Add K] [_root_.Sub K] [Mul K] [Div K] [Neg K] [Zero K] [One K] [OfNat K 2] [OfScientific K] [NatCast K] [IntCast K]
  [Fabs K] [Elem K] [LinearOrder K] [RoundedLaws K]

variable {env : DcEnv K}

/-- The slots of the loops of `buildLeaf`. -/
def dcSlots : List (Axis × Fin 4) := [Axis.X, .Y, .Z].flatMap fun D => (List.finRange 4).map fun i => (D, i)

theorem dcLeafEdges_slots (g : Grid K) (lo : IVec3) (corners : Fin 8 → Material) (s : DcLeafState K) :
    dcLeafEdges env g lo corners s = dcSlots.foldlM (fun s x => dcLeafEdge env g lo corners x.1 s x.2) s := by
  unfold dcLeafEdges dcSlots
  simp only [List.flatMap_cons, List.flatMap_nil, List.append_nil, List.foldlM_append, List.foldlM_cons, List.foldlM_nil,
    List.foldlM_map, bind_pure]

/-- Lesser endpoint of the edge of a slot. -/
def dcSlotPos (lo : IVec3) (x : Axis × Fin 4) : IVec3 := octCorner lo 1 (dcEdgeEnds x.1 x.2).1

theorem mem_dcSlots (x : Axis × Fin 4) : x ∈ dcSlots := by
  obtain ⟨D, i⟩ := x
  cases D <;> revert i <;> decide

theorem dcSlots_nodup : dcSlots.Nodup := by decide

theorem slot_end (lo : IVec3) (x : Axis × Fin 4) : edgeEnd x.1 (dcSlotPos lo x) = octCorner lo 1 (dcEdgeEnds x.1 x.2).2 := by
  obtain ⟨D, i⟩ := x
  have h : ∀ i a, (octOff (dcEdgeEnds D i).2).get a = (octOff (dcEdgeEnds D i).1).get a + if a = D then 1 else 0 := by
    cases D <;> intro i a <;> cases a <;> revert i <;> decide
  apply ivec_ext
  intro a
  have := h i a
  rw [octCorner_get, this]
  cases D <;> cases a <;> simp [dcSlotPos, edgeEnd, shift, octCorner, IVec3.get] <;> ring

theorem slot_iff {lo : IVec3} {D : Axis} {p : IVec3} : EdgeOfCell lo D p ↔ ∃ i, p = dcSlotPos lo (D, i) := by
  rw [← around_iff]
  obtain ⟨x, y, z⟩ := p
  obtain ⟨a, b, c⟩ := lo
  have f4 : ∀ P : Fin 4 → Prop, (∃ i, P i) ↔ P 0 ∨ P 1 ∨ P 2 ∨ P 3 := by
    intro P
    constructor
    · rintro ⟨i, h⟩; fin_cases i <;> tauto
    · rintro (h | h | h | h) <;> exact ⟨_, h⟩
  rw [f4]
  unfold dcSlotPos octCorner
  cases D
  · have o0 : octOff (dcEdgeEnds (Axis.X, (0 : Fin 4)).1 (Axis.X, (0 : Fin 4)).2).1 = ⟨0, 0, 0⟩ := rfl
    have o1 : octOff (dcEdgeEnds (Axis.X, (1 : Fin 4)).1 (Axis.X, (1 : Fin 4)).2).1 = ⟨0, 0, 1⟩ := rfl
    have o2 : octOff (dcEdgeEnds (Axis.X, (2 : Fin 4)).1 (Axis.X, (2 : Fin 4)).2).1 = ⟨0, 1, 0⟩ := rfl
    have o3 : octOff (dcEdgeEnds (Axis.X, (3 : Fin 4)).1 (Axis.X, (3 : Fin 4)).2).1 = ⟨0, 1, 1⟩ := rfl
    rw [o0, o1, o2, o3]
    simp only [cellsAroundEdge, shift, List.mem_cons, List.not_mem_nil, or_false, IVec3.mk.injEq]
    omega
  · have o0 : octOff (dcEdgeEnds (Axis.Y, (0 : Fin 4)).1 (Axis.Y, (0 : Fin 4)).2).1 = ⟨0, 0, 0⟩ := rfl
    have o1 : octOff (dcEdgeEnds (Axis.Y, (1 : Fin 4)).1 (Axis.Y, (1 : Fin 4)).2).1 = ⟨0, 0, 1⟩ := rfl
    have o2 : octOff (dcEdgeEnds (Axis.Y, (2 : Fin 4)).1 (Axis.Y, (2 : Fin 4)).2).1 = ⟨1, 0, 0⟩ := rfl
    have o3 : octOff (dcEdgeEnds (Axis.Y, (3 : Fin 4)).1 (Axis.Y, (3 : Fin 4)).2).1 = ⟨1, 0, 1⟩ := rfl
    rw [o0, o1, o2, o3]
    simp only [cellsAroundEdge, shift, List.mem_cons, List.not_mem_nil, or_false, IVec3.mk.injEq]
    omega
  · have o0 : octOff (dcEdgeEnds (Axis.Z, (0 : Fin 4)).1 (Axis.Z, (0 : Fin 4)).2).1 = ⟨0, 0, 0⟩ := rfl
    have o1 : octOff (dcEdgeEnds (Axis.Z, (1 : Fin 4)).1 (Axis.Z, (1 : Fin 4)).2).1 = ⟨1, 0, 0⟩ := rfl
    have o2 : octOff (dcEdgeEnds (Axis.Z, (2 : Fin 4)).1 (Axis.Z, (2 : Fin 4)).2).1 = ⟨0, 1, 0⟩ := rfl
    have o3 : octOff (dcEdgeEnds (Axis.Z, (3 : Fin 4)).1 (Axis.Z, (3 : Fin 4)).2).1 = ⟨1, 1, 0⟩ := rfl
    rw [o0, o1, o2, o3]
    simp only [cellsAroundEdge, shift, List.mem_cons, List.not_mem_nil, or_false, IVec3.mk.injEq]
    omega

theorem dcSlotPos_inj {lo : IVec3} {x y : Axis × Fin 4} (h1 : x.1 = y.1) (h : dcSlotPos lo x = dcSlotPos lo y) : x = y := by
  obtain ⟨D, i⟩ := x
  obtain ⟨D', j⟩ := y
  simp only at h1
  subst h1
  have key : ∀ i j, octOff (dcEdgeEnds D i).1 = octOff (dcEdgeEnds D j).1 → i = j := by cases D <;> decide
  congr 1
  apply key
  simp only [dcSlotPos, octCorner, IVec3.mk.injEq] at h
  obtain ⟨h1, h2, h3⟩ := h
  apply ivec_ext
  intro a
  cases a <;> simp only [IVec3.get] <;> omega

theorem slot_inCube {g : Grid K} {lo : IVec3} (hin : CellIn g.maxCoord lo) (x : Axis × Fin 4) :
    ∀ v ∈ edgeVertices x.1 (dcSlotPos lo x), InCube g.maxCoord v := by
  intro v hv
  exact hin v ((slot_iff (lo := lo)).2 ⟨x.2, rfl⟩ v hv)

theorem cell_closed {lo : IVec3} {i : Fin 8} : octCorner lo 1 i ∈ cellVertices lo := by
  obtain ⟨x, y, z⟩ := lo
  fin_cases i <;> simp [octCorner, octOff, cellVertices, shift]

theorem filled_edge_unique {g : Grid K} (h : Filled g) {D : Axis} {e e' : GridEdge K} (he : e ∈ g.edges D) (he' : e' ∈ g.edges D)
    (hl : e.lesser = e'.lesser) : e = e' := by
  by_contra hne
  have hs := h.sorted D
  obtain ⟨i, hi, rfl⟩ := List.mem_iff_getElem.1 he
  obtain ⟨j, hj, rfl⟩ := List.mem_iff_getElem.1 he'
  rcases lt_trichotomy i j with hij | rfl | hij
  · exact lexYXZ_irrefl (hl ▸ List.pairwise_iff_getElem.1 hs i j hi hj hij)
  · exact hne rfl
  · exact lexYXZ_irrefl (hl ▸ List.pairwise_iff_getElem.1 hs j i hj hi hij)

theorem filled_findEdge {g : Grid K} (h : Filled g) {D : Axis} {p : IVec3} (hx : CrossingEdge g D p) :
    ∃ it e, findEdge (g.edges D) p.x p.y p.z = some it ∧ (g.edges D)[it]? = some e ∧ e.lesser = p := by
  have hsorted : SortedEdges (g.edges D) := (h.sorted D).imp fun hab hba => lexYXZ_asymm hab hba
  have hfit : ∀ e ∈ g.edges D,
      fitsInt16 e.lesser.x = true ∧ fitsInt16 e.lesser.y = true ∧ fitsInt16 e.lesser.z = true := by
    intro e he
    have hp0 : InCube g.half e.lesser := (h.crossing he).1 _ (by cases D <;> simp [edgeVertices])
    have := fits_of_inCube h.wf hp0
    simp only [Bool.and_eq_true] at this
    exact ⟨this.1.1, this.1.2, this.2⟩
  obtain ⟨f1, f2⟩ := findEdge_spec (g.edges D) hsorted hfit p.x p.y p.z
  obtain ⟨e, he, hl⟩ := (h.edge_iff D p).2 hx
  cases hf : findEdge (g.edges D) p.x p.y p.z with
  | none => exact absurd hl (f2.1 hf e he)
  | some it =>
    obtain ⟨e', he', hl', -⟩ := f1 it hf
    exact ⟨it, e', rfl, he', hl'⟩

/-- One slot. -/
theorem dcLeafEdge_eq {g : Grid K} (h : Filled g) {lo : IVec3} (hin : CellIn g.maxCoord lo) {corners : Fin 8 → Material}
    (hc : ∀ i, g.at (octCorner lo 1 i) = some (corners i)) (x : Axis × Fin 4) (s : DcLeafState K)
    (hr : s.q.usedRows ≤ qef3Rows) (hn : s.q.pointsCount < 4294967295) :
    ∃ (es : List (GridEdge K)) (s' : DcLeafState K), dcLeafEdge env g lo corners x.1 s x.2 = some s' ∧ es.length ≤ 1 ∧
      (∀ e, e ∈ es ↔ e ∈ edgeList g ∧ e.axis = x.1 ∧ e.lesser = dcSlotPos lo x) ∧
      runOps qef3Rows 30 env.tiny s.q (es.map (planeOp env.eps)) = some s'.q ∧
      s'.avg = (es.map fun e => edgeNormal env.eps e.gradient).foldl Vec3.add s.avg ∧
      s'.has = (s.has || !es.isEmpty) ∧ s'.q.usedRows ≤ qef3Rows ∧ s'.q.pointsCount = s.q.pointsCount + es.length ∧
      SameOptions s.q s'.q := by
  obtain ⟨D, i⟩ := x
  have e1 := hc (dcEdgeEnds D i).1
  have e2 := hc (dcEdgeEnds D i).2
  rw [← slot_end lo (D, i)] at e2
  have hs1 := solid_of e1
  have hs2 := solid_of e2
  have hcr : CrossingEdge g D (dcSlotPos lo (D, i)) ↔ solidAt g (dcSlotPos lo (D, i)) ≠ solidAt g (edgeEnd D (dcSlotPos lo (D, i))) :=
    ⟨fun h => h.2, fun h => ⟨slot_inCube hin (D, i), h⟩⟩
  have hmem : ∀ e, e ∈ edgeList g ∧ e.axis = D ∧ e.lesser = dcSlotPos lo (D, i) ↔ e ∈ g.edges D ∧ e.lesser = dcSlotPos lo (D, i) := by
    intro e
    rw [mem_edgeList h]
    constructor
    · rintro ⟨a, rfl, b⟩; exact ⟨a, b⟩
    · rintro ⟨a, b⟩; exact ⟨by rw [h.edge_axis D e a]; exact a, h.edge_axis D e a, b⟩
  by_cases hx : CrossingEdge g D (dcSlotPos lo (D, i))
  · have hne := hcr.1 hx
    unfold dcSlotPos at hne
    simp only at hne
    rw [hs1, show solidAt g (edgeEnd D (octCorner lo 1 (dcEdgeEnds D i).1)) = _ from hs2] at hne
    obtain ⟨it, e, hf, he, hl⟩ : ∃ it e, findEdge (g.edges D) (dcSlotPos lo (D, i)).x (dcSlotPos lo (D, i)).y (dcSlotPos lo (D, i)).z = some it ∧
        (g.edges D)[it]? = some e ∧ e.lesser = dcSlotPos lo (D, i) := filled_findEdge h hx
    have hem : e ∈ g.edges D := List.mem_of_getElem? he
    obtain ⟨q', a1, a2, a3, a4⟩ := addPlane_some (tiny := env.tiny) (by simp [qef3Rows] : 3 + 1 < qef3Rows) hr e.surfacePoint.toVecN
      (edgeNormal env.eps e.gradient).toVecN
    refine ⟨[e], ⟨q', s.avg.add (edgeNormal env.eps e.gradient), true⟩, ?_, by simp, ?_, ?_, by simp, by simp, a2, ?_, a4⟩
    · unfold dcLeafEdge
      dsimp only
      rw [if_neg (by intro e; apply hne; rw [e]), if_neg (by rintro ⟨a, b⟩; apply hne; simp [a, b])]
      rw [show findEdge (g.edges D) (lo.x + (cornerOff (dcEdgeEnds D i).1).x) (lo.y + (cornerOff (dcEdgeEnds D i).1).y)
        (lo.z + (cornerOff (dcEdgeEnds D i).1).z) = some it from by
          rw [← hf, cornerOff_eq]; simp only [dcSlotPos, octCorner, one_mul]]
      simp only [he, a1]
    · intro e'
      rw [hmem, List.mem_singleton]
      constructor
      · rintro rfl; exact ⟨hem, hl⟩
      · rintro ⟨b1, b2⟩; exact filled_edge_unique h b1 hem (b2.trans hl.symm)
    · simp only [List.map_cons, List.map_nil, runOps, List.foldlM_cons, List.foldlM_nil, planeOp, QefOp.apply, a1,
        Option.bind_eq_bind, Option.bind_some]
      rfl
    · rw [a3, u32, Nat.mod_eq_of_lt (by omega)]; rfl
  · refine ⟨[], s, ?_, by simp, ?_, rfl, rfl, by simp, hr, rfl, sameOptions_refl _⟩
    · have hne := (not_iff_not.2 hcr).1 hx
      unfold dcSlotPos at hne
      simp only [not_not] at hne
      rw [hs1, show solidAt g (edgeEnd D (octCorner lo 1 (dcEdgeEnds D i).1)) = _ from hs2] at hne
      unfold dcLeafEdge
      dsimp only
      by_cases e : corners (dcEdgeEnds D i).1 = corners (dcEdgeEnds D i).2
      · rw [if_pos e]
      · rw [if_neg e, if_pos]
        by_cases b1 : corners (dcEdgeEnds D i).1 = .Empty <;> by_cases b2 : corners (dcEdgeEnds D i).2 = .Empty <;>
          simp [b1, b2] at hne e ⊢
    · intro e
      rw [hmem]
      constructor
      · intro h; cases h
      · rintro ⟨a, b⟩
        exact absurd ((h.edge_iff D _).1 ⟨e, a, b⟩) hx

/-- All slots. -/
theorem dcLeafSlots_eq {g : Grid K} (h : Filled g) {lo : IVec3} (hin : CellIn g.maxCoord lo) {corners : Fin 8 → Material}
    (hc : ∀ i, g.at (octCorner lo 1 i) = some (corners i)) (xs : List (Axis × Fin 4)) (hnd : xs.Nodup) (s : DcLeafState K)
    (hr : s.q.usedRows ≤ qef3Rows) (hn : s.q.pointsCount + xs.length < 4294967295) :
    ∃ (es : List (GridEdge K)) (s' : DcLeafState K),
      xs.foldlM (fun s x => dcLeafEdge env g lo corners x.1 s x.2) s = some s' ∧ es.length ≤ xs.length ∧ es.Nodup ∧
      (∀ e, e ∈ es ↔ e ∈ edgeList g ∧ ∃ x ∈ xs, e.axis = x.1 ∧ e.lesser = dcSlotPos lo x) ∧
      runOps qef3Rows 30 env.tiny s.q (es.map (planeOp env.eps)) = some s'.q ∧
      s'.avg = (es.map fun e => edgeNormal env.eps e.gradient).foldl Vec3.add s.avg ∧
      s'.has = (s.has || !es.isEmpty) ∧ s'.q.usedRows ≤ qef3Rows ∧ s'.q.pointsCount = s.q.pointsCount + es.length ∧
      SameOptions s.q s'.q := by
  induction xs generalizing s with
  | nil =>
    exact ⟨[], s, rfl, by simp, by simp, by simp, rfl, rfl, by simp, hr, rfl, sameOptions_refl _⟩
  | cons x xs ih =>
    obtain ⟨hx, hnd⟩ := List.nodup_cons.1 hnd
    simp only [List.length_cons] at hn
    obtain ⟨es1, s1, a1, a2, a3, a4, a5, a6, a7, a8, a9⟩ := dcLeafEdge_eq (env := env) h hin hc x s hr (by omega)
    obtain ⟨es2, s2, b1, b2, b0, b3, b4, b5, b6, b7, b8, b9⟩ := ih hnd s1 a7 (by rw [a8]; omega)
    refine ⟨es1 ++ es2, s2, ?_, ?_, ?_, ?_, ?_, ?_, ?_, b7, ?_, sameOptions_trans a9 b9⟩
    · simp only [List.foldlM_cons, a1, Option.bind_eq_bind, Option.bind_some]; exact b1
    · simp only [List.length_append, List.length_cons]; omega
    · have n1 : es1.Nodup := by
        rcases es1 with _ | ⟨e, _ | ⟨e', es⟩⟩
        · simp
        · simp
        · simp at a2
      refine List.nodup_append.2 ⟨n1, b0, ?_⟩
      rintro e h1 e' h2 rfl
      obtain ⟨-, c1, c2⟩ := (a3 e).1 h1
      obtain ⟨-, y, hy, d1, d2⟩ := (b3 e).1 h2
      have := dcSlotPos_inj (c1.symm.trans d1) (c2.symm.trans d2)
      subst this
      exact hx hy
    · intro e
      rw [List.mem_append, a3, b3]
      simp only [List.mem_cons, exists_eq_or_imp]
      tauto
    · rw [List.map_append]
      unfold runOps at a4 b4 ⊢
      rw [List.foldlM_append, a4]
      exact b4
    · rw [List.map_append, List.foldl_append, ← a5, b5]
    · rw [b6, a6]
      cases es1 <;> cases es2 <;> simp
    · rw [b8, a8, List.length_append]; omega

end Isomesh
