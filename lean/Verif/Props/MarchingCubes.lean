import Verif.Proofs.McTables
import Mathlib.Tactic.FieldSimp

/-! C15, C16: marching cubes on every consistent grid. -/

set_option linter.unusedSectionVars false

namespace Isomesh
open Spec

variable {K : Type} [Add K] [Sub K] [Mul K] [Div K] [Zero K] [IntCast K] [LE K] [LT K] [DecidableLE K] [DecidableLT K]

/-! ### C15 -/

theorem slotEdge_in_cell {P : IVec3} {i : Nat} (hi : i < 12) :
    ∀ v ∈ edgeVertices (slotEdge P i).axis (slotEdge P i).at_, v ∈ cellVertices P := by
  obtain ⟨x, y, z⟩ := P
  interval_cases i <;> simp [slotAxis, slotEdge, slotOff, edgeCorner, kCellEdgeEndpoint,
    cornerPos, shift, edgeVertices, cellVertices]

theorem mem_cellTriangles {g : Grid K} {P : IVec3} {t : Nat × Nat × Nat} :
    t ∈ cellTriangles g P ↔ ∃ s ∈ mcTriangles (cellMask g P),
      t = ((vid g P s.1).getD 0, (vid g P s.2.1).getD 0, (vid g P s.2.2).getD 0) := by
  unfold cellTriangles
  simp only [List.mem_map]
  constructor <;> rintro ⟨s, hs, h⟩ <;> exact ⟨s, hs, h.symm⟩

/-- C15.  On any consistent grid `marchingCubes` succeeds (no failed assertion, no use of a missing vertex); there is one
mesh vertex per crossing edge, located at the edge's surface point; the indices form whole triangles, each with three
different valid vertices whose edges belong to one common cell of the grid; and every vertex is used. -/
theorem C15_valid {g : Grid K} (h : Filled g) (nrm : Vec3 K → Vec3 K) :
    ∃ r, marchingCubes nrm g = some r ∧ r.globalPos = g.globalPos ∧ r.globalScale = g.step ∧
      r.mesh.vertices.length = (g.edges .X).length + (g.edges .Y).length + (g.edges .Z).length ∧
      (∀ (v : Nat) (e : GridEdge K), (edgeList g)[v]? = some e →
        r.mesh.vertices[v]? = some ⟨e.surfacePoint, nrm e.gradient, e.material⟩) ∧
      r.mesh.indices.length = 3 * (triangles r.mesh.indices).length ∧
      (∀ t ∈ triangles r.mesh.indices,
        t.1 < r.mesh.vertices.length ∧ t.2.1 < r.mesh.vertices.length ∧ t.2.2 < r.mesh.vertices.length ∧
        t.1 ≠ t.2.1 ∧ t.2.1 ≠ t.2.2 ∧ t.1 ≠ t.2.2 ∧
        ∃ c, CellIn g.maxCoord c ∧ ∀ v, (v = t.1 ∨ v = t.2.1 ∨ v = t.2.2) →
          ∃ e, (edgeList g)[v]? = some e ∧ ∀ q ∈ edgeVertices e.axis e.lesser, q ∈ cellVertices c) ∧
      (∀ v < r.mesh.vertices.length, ∃ t ∈ triangles r.mesh.indices, v = t.1 ∨ v = t.2.1 ∨ v = t.2.2) := by
  refine ⟨_, mc_result h nrm, rfl, rfl, ?_, ?_, ?_, ?_, ?_⟩
  · simp [edgeList]; omega
  · intro v e he
    simp [he, mcVertex]
  · dsimp only
    rw [triangles_flatTri]
    generalize (mcCells g).flatMap (cellTriangles g) = ts
    induction ts with
    | nil => rfl
    | cons t ts ih =>
      simp only [flatTri, List.flatMap_cons, List.length_append, List.length_cons, List.length_nil] at *
      omega
  · dsimp only
    rw [triangles_flatTri]
    intro t ht
    obtain ⟨P, hP, ht⟩ := List.mem_flatMap.1 ht
    obtain ⟨hc, -⟩ := (mem_mcCells h).1 hP
    obtain ⟨s, hs, rfl⟩ := mem_cellTriangles.1 ht
    obtain ⟨a, b, c, ha, hb, hc', r⟩ := cellTriangles_ok h hc hs
    obtain ⟨-, -, -, -, htab⟩ := C14_triangle_table.2 _ (cellMask_lt g P)
    obtain ⟨l1, l2, l3, -⟩ := htab s hs
    simp only [ha, hb, hc', Option.getD_some, List.length_map]
    obtain ⟨r1, r2, r3, r4, r5, r6⟩ := r
    refine ⟨r1, r2, r3, r4, r5, r6, P, hc, ?_⟩
    have key : ∀ i v, i < 12 → vid g P i = some v →
        ∃ e, (edgeList g)[v]? = some e ∧ ∀ q ∈ edgeVertices e.axis e.lesser, q ∈ cellVertices P := by
      intro i v hi hv
      obtain ⟨e, he, hl⟩ := (edgeIdx_eq_some h).1 hv
      refine ⟨e, he, ?_⟩
      have := slotEdge_in_cell (P := P) hi
      rw [← hl] at this
      exact this
    rintro v (rfl | rfl | rfl)
    · exact key _ _ l1 ha
    · exact key _ _ l2 hb
    · exact key _ _ l3 hc'
  · dsimp only
    rw [triangles_flatTri, List.length_map]
    intro v hv
    obtain ⟨e, he⟩ : ∃ e, (edgeList g)[v]? = some e := ⟨_, List.getElem?_eq_getElem hv⟩
    have hcr := h.crossing ((mem_edgeList h).1 (List.mem_of_getElem? he))
    -- some cell around the edge is in the grid
    have hslot : ∃ i < 12, ∃ P, CellIn g.maxCoord P ∧ slotEdge P i = LEdge.ofGridEdge e := by
      have hin := edgeVertices_iff.1 hcr.1
      have hsz := h.wf.two_le
      have hh := h.wf.half_eq
      have h0 : (1 : Int) ≤ g.maxCoord := by show 1 ≤ g.half; omega
      revert hin
      unfold LEdge.ofGridEdge
      generalize e.axis = ax
      obtain ⟨x, y, z⟩ := e.lesser
      rintro ⟨h1, h2⟩
      simp only [InCube] at h1
      cases ax with
      | X =>
        simp only [edgeEnd, shift, InCube] at h2
        by_cases hy : y = g.maxCoord <;> by_cases hz : z = g.maxCoord
        · exact ⟨3, by omega, ⟨x, y - 1, z - 1⟩, by rw [cellIn_iff]; simp only; omega,
            by simp [slotEdge, slotAxis, slotOff, edgeCorner, kCellEdgeEndpoint, cornerPos, shift]⟩
        · exact ⟨2, by omega, ⟨x, y - 1, z⟩, by rw [cellIn_iff]; simp only; omega,
            by simp [slotEdge, slotAxis, slotOff, edgeCorner, kCellEdgeEndpoint, cornerPos, shift]⟩
        · exact ⟨1, by omega, ⟨x, y, z - 1⟩, by rw [cellIn_iff]; simp only; omega,
            by simp [slotEdge, slotAxis, slotOff, edgeCorner, kCellEdgeEndpoint, cornerPos, shift]⟩
        · exact ⟨0, by omega, ⟨x, y, z⟩, by rw [cellIn_iff]; simp only; omega,
            by simp [slotEdge, slotAxis, slotOff, edgeCorner, kCellEdgeEndpoint, cornerPos, shift]⟩
      | Y =>
        simp only [edgeEnd, shift, InCube] at h2
        by_cases hx : x = g.maxCoord <;> by_cases hz : z = g.maxCoord
        · exact ⟨7, by omega, ⟨x - 1, y, z - 1⟩, by rw [cellIn_iff]; simp only; omega,
            by simp [slotEdge, slotAxis, slotOff, edgeCorner, kCellEdgeEndpoint, cornerPos, shift]⟩
        · exact ⟨6, by omega, ⟨x - 1, y, z⟩, by rw [cellIn_iff]; simp only; omega,
            by simp [slotEdge, slotAxis, slotOff, edgeCorner, kCellEdgeEndpoint, cornerPos, shift]⟩
        · exact ⟨5, by omega, ⟨x, y, z - 1⟩, by rw [cellIn_iff]; simp only; omega,
            by simp [slotEdge, slotAxis, slotOff, edgeCorner, kCellEdgeEndpoint, cornerPos, shift]⟩
        · exact ⟨4, by omega, ⟨x, y, z⟩, by rw [cellIn_iff]; simp only; omega,
            by simp [slotEdge, slotAxis, slotOff, edgeCorner, kCellEdgeEndpoint, cornerPos, shift]⟩
      | Z =>
        simp only [edgeEnd, shift, InCube] at h2
        by_cases hx : x = g.maxCoord <;> by_cases hy : y = g.maxCoord
        · exact ⟨11, by omega, ⟨x - 1, y - 1, z⟩, by rw [cellIn_iff]; simp only; omega,
            by simp [slotEdge, slotAxis, slotOff, edgeCorner, kCellEdgeEndpoint, cornerPos, shift]⟩
        · exact ⟨9, by omega, ⟨x - 1, y, z⟩, by rw [cellIn_iff]; simp only; omega,
            by simp [slotEdge, slotAxis, slotOff, edgeCorner, kCellEdgeEndpoint, cornerPos, shift]⟩
        · exact ⟨10, by omega, ⟨x, y - 1, z⟩, by rw [cellIn_iff]; simp only; omega,
            by simp [slotEdge, slotAxis, slotOff, edgeCorner, kCellEdgeEndpoint, cornerPos, shift]⟩
        · exact ⟨8, by omega, ⟨x, y, z⟩, by rw [cellIn_iff]; simp only; omega,
            by simp [slotEdge, slotAxis, slotOff, edgeCorner, kCellEdgeEndpoint, cornerPos, shift]⟩
    obtain ⟨i, hi, P, hP, hs⟩ := hslot
    have hvid : vid g P i = some v := by
      unfold vid
      rw [hs]
      exact (edgeIdx_eq_some h).2 ⟨e, he, rfl⟩
    have hcross : Spec.crosses (cellMask g P) i = true := by rw [← vid_isSome h hP hi, hvid]; rfl
    obtain ⟨s, hs', hsi⟩ := C14_edges_used _ (cellMask_lt g P) i hi hcross
    refine ⟨_, List.mem_flatMap.2 ⟨P, (mem_mcCells h).2 ⟨hP, i, hi, by rw [hvid]; rfl⟩,
      mem_cellTriangles.2 ⟨s, hs', rfl⟩⟩, ?_⟩
    rcases hsi with hsi | hsi | hsi
    · left; rw [hsi, hvid]; rfl
    · right; left; rw [hsi, hvid]; rfl
    · right; right; rw [hsi, hvid]; rfl

section Exact
variable {K : Type} [Field K] [LinearOrder K] [IsStrictOrderedRing K]

/-- C15, positions: in a grid filled from `f`, the surface point of a stored edge, mapped to global coordinates, is
exactly the point found by the solver on that edge; with the offset in [0, 1] it lies between the edge's endpoints. -/
theorem C15_vertex_position {g g' : Grid K} (hg : g.Reachable) {f : ScalarField K} {sv : ZeroFinder K}
    (h : g.fill f sv = some g') (hstep : g.step ≠ 0) {D : Axis} {e : GridEdge K} (he : e ∈ g'.edges D) :
    g'.localToGlobal e.surfacePoint =
      (worldPos g.globalPos g.step e.lesser).set D (crossingCoord f sv (worldPos g.globalPos g.step) D e.lesser) := by
  obtain ⟨g'', e', ⟨-, -, hp, ht⟩, -⟩ := C06_fill_materials hg f sv
  rw [h] at e'; cases e'
  obtain ⟨p, -, -, rfl⟩ := ((C07_fill_edges hg h D).1 e).1 he
  rw [edgeRecord_lesser]
  generalize hc : crossingCoord f sv (worldPos g.globalPos g.step) D p = c
  cases D <;>
    (simp only [edgeRecord, GridEdge.surfacePoint, Grid.localToGlobal, hp, ht, worldPos, Vec3.set, Vec3.get] at *
     simp only [hc]
     ext <;> field_simp <;> ring)

theorem C15_point_on_edge (e : GridEdge K) (h0 : 0 ≤ e.offset) (h1 : e.offset ≤ 1) :
    (e.lesser.get e.axis : K) ≤ e.surfacePoint.get e.axis ∧
    e.surfacePoint.get e.axis ≤ (((edgeEnd e.axis e.lesser).get e.axis : Int) : K) ∧
    (∀ a, a ≠ e.axis → e.surfacePoint.get a = ((e.lesser.get a : Int) : K)) := by
  obtain ⟨p, gr, o, ax, s, m⟩ := e
  refine ⟨?_, ?_, ?_⟩
  · cases ax <;> simp_all [GridEdge.surfacePoint, Vec3.get, IVec3.get]
  · cases ax <;> simp_all [GridEdge.surfacePoint, Vec3.get, IVec3.get, edgeEnd, shift]
  · intro a ha
    cases ax <;> cases a <;> simp_all [GridEdge.surfacePoint, Vec3.get, IVec3.get]

end Exact

/-! ### C16 -/

theorem cellSides_eq (g : Grid K) (P : IVec3) : sides (cellTriangles g P) =
    (sides (mcTriangles (cellMask g P))).map (fun s => ((vid g P s.1).getD 0, (vid g P s.2).getD 0)) := by
  unfold sides cellTriangles
  rw [List.flatMap_map, List.map_flatMap]
  rfl

/-- A side of a cell's triangle comes from two slots of that cell. -/
theorem cellSide_slots {g : Grid K} (h : Filled g) {P : IVec3} (hP : CellIn g.maxCoord P) {a b : Nat}
    (hs : (a, b) ∈ sides (cellTriangles g P)) :
    ∃ i < 12, ∃ j < 12, (i, j) ∈ sides (mcTriangles (cellMask g P)) ∧ vid g P i = some a ∧ vid g P j = some b := by
  rw [cellSides_eq] at hs
  obtain ⟨⟨i, j⟩, hij, heq⟩ := List.mem_map.1 hs
  have hij' := hij
  unfold sides at hij
  obtain ⟨t, ht, hm⟩ := List.mem_flatMap.1 hij
  obtain ⟨x, y, z, hx, hy, hz, -⟩ := cellTriangles_ok h hP ht
  have hsome : ∃ u v, vid g P i = some u ∧ vid g P j = some v := by
    simp only [List.mem_cons, List.not_mem_nil, or_false, Prod.mk.injEq] at hm
    rcases hm with ⟨rfl, rfl⟩ | ⟨rfl, rfl⟩ | ⟨rfl, rfl⟩
    · exact ⟨_, _, hx, hy⟩
    · exact ⟨_, _, hy, hz⟩
    · exact ⟨_, _, hz, hx⟩
  obtain ⟨u, v, hu, hv⟩ := hsome
  obtain ⟨l1, l2, -⟩ := sides_table (cellMask_lt g P) hij'
  simp only [hu, hv, Option.getD_some, Prod.mk.injEq] at heq
  exact ⟨i, l1, j, l2, hij', by rw [hu, heq.1], by rw [hv, heq.2]⟩

theorem cellSide_count {g : Grid K} (h : Filled g) {P : IVec3} (hP : CellIn g.maxCoord P) {a b i j : Nat}
    (hi : i < 12) (hj : j < 12) (ha : vid g P i = some a) (hb : vid g P j = some b) :
    (sides (cellTriangles g P)).count (a, b) = (sides (mcTriangles (cellMask g P))).count (i, j) := by
  rw [cellSides_eq]
  unfold List.count
  rw [List.countP_map]
  apply List.countP_congr
  rintro ⟨i', j'⟩ hs
  obtain ⟨l1, l2, -⟩ := sides_table (cellMask_lt g P) hs
  have hs' : ((vid g P i').getD 0, (vid g P j').getD 0) ∈ sides (cellTriangles g P) := by
    rw [cellSides_eq]; exact List.mem_map.2 ⟨_, hs, rfl⟩
  have hsome : ∃ u v, vid g P i' = some u ∧ vid g P j' = some v := by
    unfold sides at hs
    obtain ⟨t, ht, hm⟩ := List.mem_flatMap.1 hs
    obtain ⟨x, y, z, hx, hy, hz, -⟩ := cellTriangles_ok h hP ht
    simp only [List.mem_cons, List.not_mem_nil, or_false, Prod.mk.injEq] at hm
    rcases hm with ⟨rfl, rfl⟩ | ⟨rfl, rfl⟩ | ⟨rfl, rfl⟩
    · exact ⟨_, _, hx, hy⟩
    · exact ⟨_, _, hy, hz⟩
    · exact ⟨_, _, hz, hx⟩
  obtain ⟨u, v, hu, hv⟩ := hsome
  simp only [Function.comp, hu, hv, Option.getD_some, beq_iff_eq, Prod.mk.injEq]
  constructor
  · rintro ⟨rfl, rfl⟩; exact ⟨vid_inj h l1 hi hu ha, vid_inj h l2 hj hv hb⟩
  · rintro ⟨rfl, rfl⟩
    rw [hu] at ha; rw [hv] at hb
    cases ha; cases hb; exact ⟨rfl, rfl⟩

theorem sum_zero (l : List Nat) (h : ∀ x ∈ l, x = 0) : l.sum = 0 := by
  induction l with
  | nil => rfl
  | cons a l ih =>
    rw [List.sum_cons, h a List.mem_cons_self, ih (fun x hx => h x (List.mem_cons_of_mem _ hx))]

theorem sum_two {α : Type} [DecidableEq α] (cs : List α) (hn : cs.Nodup) (f : α → Nat) (x y : α) (hxy : x ≠ y)
    (h0 : ∀ c ∈ cs, c ≠ x → c ≠ y → f c = 0) :
    (cs.map f).sum = (if x ∈ cs then f x else 0) + (if y ∈ cs then f y else 0) := by
  induction cs with
  | nil => simp
  | cons c cs ih =>
    obtain ⟨hc, hn'⟩ := List.nodup_cons.1 hn
    rw [List.map_cons, List.sum_cons, ih hn' (fun d hd => h0 d (List.mem_cons_of_mem _ hd))]
    by_cases hx : c = x
    · subst hx
      have hy : ¬ y = c := fun e => hxy e.symm
      simp [hc, hy]
    · by_cases hy : c = y
      · subst hy
        have hx' : ¬ x = c := hxy
        simp [hc, hx']
        omega
      · have := h0 c List.mem_cons_self hx hy
        have hx' : ¬ x = c := fun e => hx e.symm
        have hy' : ¬ y = c := fun e => hy e.symm
        simp [this, hx', hy']

/-- The neighbour of `P` across face `f`. -/
def acrossFace (P : IVec3) (f : Nat) : IVec3 := shift P (faceDir f).x (faceDir f).y (faceDir f).z

theorem acrossFace_ne (P : IVec3) (f : Nat) : acrossFace P f ≠ P := by
  obtain ⟨x, y, z⟩ := P
  unfold acrossFace faceDir faceAxis faceSide shift
  intro h
  split_ifs at h <;> simp at h <;> omega

theorem acrossFace_acrossFace (P : IVec3) {f : Nat} (hf : f < 6) : acrossFace (acrossFace P f) (oppFace f) = P := by
  obtain ⟨x, y, z⟩ := P
  interval_cases f <;> simp [acrossFace, faceDir, faceAxis, faceSide, shift, oppFace]

theorem slotEdge_across {P : IVec3} {f i : Nat} (hf : f < 6) (hi : i < 12) (hif : inFace f i = true) :
    slotEdge (acrossFace P f) (oppSlot f i) = slotEdge P i := by
  obtain ⟨-, -, -, hax, hx, hy, hz, -⟩ := opp_table f hf i hi hif
  unfold slotEdge acrossFace shift
  simp only [hax, LEdge.mk.injEq, IVec3.mk.injEq, true_and]
  omega

theorem mask_across {g : Grid K} {P : IVec3} {f : Nat} (hf : f < 6) :
    mirrorMask f (cellMask g P) = cellMask g (acrossFace P f) &&& faceMask (oppFace f) := by
  apply Nat.eq_of_testBit_eq
  intro c
  unfold mirrorMask faceMask
  rw [Nat.testBit_and, testBit_maskOf, testBit_maskOf]
  by_cases hc : c < 8
  · obtain ⟨h8, hp, ha, hs⟩ := flip_table f hf c hc
    have e1 := solid_cellMask g P h8
    have e2 := solid_cellMask g (acrossFace P f) hc
    unfold solid at e1 e2
    rw [e1, e2, ha, hs]
    by_cases hside : (cornerPos c).get (faceAxis f) = 1 - faceSide f
    · obtain ⟨hx, hy, hz⟩ := hp hside
      have : shift (acrossFace P f) (cornerPos c).x (cornerPos c).y (cornerPos c).z =
          shift P (cornerPos (flipCorner f c)).x (cornerPos (flipCorner f c)).y (cornerPos (flipCorner f c)).z := by
        unfold acrossFace shift
        simp only [IVec3.mk.injEq]
        omega
      rw [this]
      simp [hc, hside]
    · simp [hc, hside]
  · simp [hc]

/-- The sides two neighbouring cells have on their common face are the same, reversed. -/
theorem across_sides {g : Grid K} {P : IVec3} {f i j : Nat} (hf : f < 6) 
    (hs : (i, j) ∈ sides (mcTriangles (cellMask g P))) (hi : inFace f i = true) (hj : inFace f j = true) :
    (oppSlot f j, oppSlot f i) ∈ sides (mcTriangles (cellMask g (acrossFace P f))) := by
  obtain ⟨l1, l2, -⟩ := sides_table (cellMask_lt g P) hs
  obtain ⟨-, hi', -, -, -, -, -, hf', -⟩ := opp_table f hf i l1 hi
  obtain ⟨-, hj', -⟩ := opp_table f hf j l2 hj
  have h1 := sides_mirror (cellMask_lt g P) hf hs hi hj
  rw [mask_across hf] at h1
  exact sides_face (cellMask_lt g _) hf' h1 hj' hi'

theorem across_count {g : Grid K} {P : IVec3} {f i j : Nat} (hf : f < 6) (l1 : i < 12) (l2 : j < 12)
    (hi : inFace f i = true) (hj : inFace f j = true) :
    (sides (mcTriangles (cellMask g (acrossFace P f)))).count (oppSlot f j, oppSlot f i) =
      (sides (mcTriangles (cellMask g P))).count (i, j) := by
  obtain ⟨k1, hi', ii, -, -, -, -, hf', -⟩ := opp_table f hf i l1 hi
  obtain ⟨k2, hj', jj, -⟩ := opp_table f hf j l2 hj
  by_cases hs : (i, j) ∈ sides (mcTriangles (cellMask g P))
  · rw [(sides_table (cellMask_lt g P) hs).2.2.2.1,
      (sides_table (cellMask_lt g _) (across_sides hf hs hi hj)).2.2.2.1]
  · rw [List.count_eq_zero_of_not_mem hs, List.count_eq_zero_of_not_mem]
    intro hs'
    have := across_sides (P := acrossFace P f) hf' hs' hj' hi'
    rw [acrossFace_acrossFace P hf, ii, jj] at this
    exact hs this

/-- If two slots of `P` and of `Q` hold the same two edges, `Q` is `P` or the neighbour across a common face. -/
theorem same_edges {P Q : IVec3} {i j i' j' : Nat} (hi : i < 12) (hj : j < 12) (hi' : i' < 12) (hj' : j' < 12)
    (hij : i ≠ j) (h1 : slotEdge P i = slotEdge Q i') (h2 : slotEdge P j = slotEdge Q j') :
    Q = P ∨ ∃ f < 6, inFace f i = true ∧ inFace f j = true ∧ Q = acrossFace P f := by
  have a1 := congrArg LEdge.axis h1
  have a2 := congrArg LEdge.axis h2
  have p1 := congrArg LEdge.at_ h1
  have p2 := congrArg LEdge.at_ h2
  simp only [slotEdge, shift, IVec3.mk.injEq] at a1 a2 p1 p2
  rcases common_edges hi hi' hj hj' hij a1 a2 (by omega) (by omega) (by omega) with h | ⟨f, hf, fi, fj, rfl, rfl⟩
  · subst h
    left
    obtain ⟨x, y, z⟩ := P
    obtain ⟨x', y', z'⟩ := Q
    simp only [IVec3.mk.injEq] at *
    omega
  · right
    refine ⟨f, hf, fi, fj, ?_⟩
    obtain ⟨-, -, -, -, hx, hy, hz, -⟩ := opp_table f hf i hi fi
    obtain ⟨x, y, z⟩ := P
    obtain ⟨x', y', z'⟩ := Q
    simp only [acrossFace, shift, IVec3.mk.injEq] at *
    omega

theorem onBoundary_of_face {h : Int} {P : IVec3} {f i j : Nat} (hf : f < 6) (hi : i < 12) (hj : j < 12)
    (fi : inFace f i = true) (fj : inFace f j = true) (hP : CellIn h P) (hQ : ¬ CellIn h (acrossFace P f)) :
    OnCommonBoundaryPlane h (slotEdge P i) (slotEdge P j) := by
  have key : ∀ k < 12, inFace f k = true → (slotEdge P k).InPlane (faceAxis f) (P.get (faceAxis f) + faceSide f) := by
    intro k hk fk
    unfold inFace at fk
    simp only [Bool.and_eq_true, decide_eq_true_eq] at fk
    unfold LEdge.InPlane
    intro q hq
    obtain ⟨h1, h2⟩ := fk
    have hax : (slotEdge P k).axis = slotAxis k := rfl
    rw [hax] at hq
    revert h1 h2 hq
    unfold slotEdge
    dsimp only
    generalize slotOff k = o
    cases slotAxis k <;> cases faceAxis f <;>
      simp only [edgeVertices, shift, List.mem_cons, List.not_mem_nil, or_false, IVec3.get] <;>
      intro hq h1 h2 <;> first | exact absurd rfl h1 | (rcases hq with rfl | rfl <;> simp only <;> omega)
  refine ⟨faceAxis f, P.get (faceAxis f) + faceSide f, ?_, key i hi fi, key j hj fj⟩
  rw [cellIn_iff] at hP hQ
  obtain ⟨x, y, z⟩ := P
  unfold acrossFace faceDir at hQ
  have hs : faceSide f = 0 ∨ faceSide f = 1 := by unfold faceSide; omega
  cases ha : faceAxis f <;> simp only [ha, shift, IVec3.get] at hP hQ ⊢ <;> omega

/-- C16.  In the mesh produced on any consistent grid each directed triangle side occurs at most once, and it occurs in
one direction exactly as often as in the other, unless the two grid edges carrying its endpoints lie in one boundary
plane of the grid. -/
theorem C16_closed {g : Grid K} (h : Filled g) (nrm : Vec3 K → Vec3 K) {r : PlacedMesh K}
    (hr : marchingCubes nrm g = some r) (a b : Nat) :
    let S := sides (triangles r.mesh.indices)
    S.count (a, b) ≤ 1 ∧
    (S.count (a, b) = S.count (b, a) ∨
      ∃ ea eb, (edgeList g)[a]? = some ea ∧ (edgeList g)[b]? = some eb ∧
        OnCommonBoundaryPlane g.maxCoord (.ofGridEdge ea) (.ofGridEdge eb)) := by
  rw [mc_result h] at hr
  cases hr
  dsimp only
  rw [triangles_flatTri]
  have hcount : ∀ a b, (sides ((mcCells g).flatMap (cellTriangles g))).count (a, b) =
      ((mcCells g).map fun P => (sides (cellTriangles g P)).count (a, b)).sum := by
    intro a b
    have : sides ((mcCells g).flatMap (cellTriangles g)) = (mcCells g).flatMap (fun P => sides (cellTriangles g P)) := by
      unfold sides; rw [List.flatMap_assoc]
    rw [this, List.count_flatMap]
    rfl
  have hnd : (mcCells g).Nodup := (mcCells_sorted h).imp (fun hlt he => by subst he; omega)
  have hcell : ∀ c ∈ mcCells g, CellIn g.maxCoord c := fun c hc => ((mem_mcCells h).1 hc).1
  rw [hcount, hcount]
  -- find a cell with slots for a and b
  by_cases hex : ∃ P ∈ mcCells g, ∃ i < 12, ∃ j < 12, i ≠ j ∧ vid g P i = some a ∧ vid g P j = some b
  · obtain ⟨P, hP, i, hi, j, hj, hij, ha, hb⟩ := hex
    have hPc := hcell P hP
    have edgeOf : ∀ {Q k v}, vid g Q k = some v → ∃ e, (edgeList g)[v]? = some e ∧ LEdge.ofGridEdge e = slotEdge Q k :=
      fun hv => (edgeIdx_eq_some h).1 hv
    -- cells with a nonzero count are P or its neighbours across a common face
    have hsupp : ∀ Q ∈ mcCells g, ((sides (cellTriangles g Q)).count (a, b) ≠ 0 ∨
        (sides (cellTriangles g Q)).count (b, a) ≠ 0) →
        Q = P ∨ ∃ f < 6, inFace f i = true ∧ inFace f j = true ∧ Q = acrossFace P f := by
      intro Q hQ hne
      have : ∃ i' < 12, ∃ j' < 12, vid g Q i' = some a ∧ vid g Q j' = some b := by
        rcases hne with hne | hne
        · obtain ⟨i', hi', j', hj', -, h1, h2⟩ := cellSide_slots h (hcell Q hQ)
            (List.count_pos_iff.1 (Nat.pos_of_ne_zero hne))
          exact ⟨i', hi', j', hj', h1, h2⟩
        · obtain ⟨i', hi', j', hj', -, h1, h2⟩ := cellSide_slots h (hcell Q hQ)
            (List.count_pos_iff.1 (Nat.pos_of_ne_zero hne))
          exact ⟨j', hj', i', hi', h2, h1⟩
      obtain ⟨i', hi', j', hj', h1, h2⟩ := this
      exact same_edges hi hj hi' hj' hij (edgeIdx_inj h ha h1) (edgeIdx_inj h hb h2)
    have cab := cellSide_count h hPc hi hj ha hb
    have cba := cellSide_count h hPc hj hi hb ha
    -- what the table says about P
    have htab : (sides (mcTriangles (cellMask g P))).count (i, j) ≤ 1 ∧
        (sides (mcTriangles (cellMask g P))).count (j, i) ≤ 1 ∧
        (coface i j = true → (sides (mcTriangles (cellMask g P))).count (i, j) +
          (sides (mcTriangles (cellMask g P))).count (j, i) ≤ 1) ∧
        (coface i j = false → (sides (mcTriangles (cellMask g P))).count (i, j) =
          (sides (mcTriangles (cellMask g P))).count (j, i)) := by
      have hsym : coface j i = coface i j := by
        unfold coface; congr 1; funext f; rw [Bool.and_comm]
      by_cases h1 : (i, j) ∈ sides (mcTriangles (cellMask g P))
      · obtain ⟨-, -, -, t1, t2⟩ := sides_table (cellMask_lt g P) h1
        simp only at t1 t2
        cases hcf : coface i j <;> simp only [hcf] at t2 <;> simp [t1, t2]
      · by_cases h2 : (j, i) ∈ sides (mcTriangles (cellMask g P))
        · obtain ⟨-, -, -, t1, t2⟩ := sides_table (cellMask_lt g P) h2
          simp only [hsym] at t1 t2
          cases hcf : coface i j <;> simp only [hcf] at t2 <;> simp [t1, t2]
        · simp [List.count_eq_zero_of_not_mem h1, List.count_eq_zero_of_not_mem h2]
    obtain ⟨t1, t2, t3, t4⟩ := htab
    by_cases hcf : coface i j = true
    · -- common face
      have hcf' := hcf
      unfold coface at hcf'
      obtain ⟨f, hf, hff⟩ := List.any_eq_true.1 hcf'
      rw [List.mem_range] at hf
      obtain ⟨fi, fj⟩ := Bool.and_eq_true_iff.1 hff
      obtain ⟨k1, -⟩ := opp_table f hf i hi fi
      obtain ⟨k2, -⟩ := opp_table f hf j hj fj
      have hsum : ∀ x y, ((x = a ∧ y = b) ∨ (x = b ∧ y = a)) →
          ((mcCells g).map fun P => (sides (cellTriangles g P)).count (x, y)).sum =
          (sides (cellTriangles g P)).count (x, y) + (if acrossFace P f ∈ mcCells g then
            (sides (cellTriangles g (acrossFace P f))).count (x, y) else 0) := by
        intro x y hxy
        rw [sum_two (mcCells g) hnd _ P (acrossFace P f) (acrossFace_ne P f).symm]
        · rw [if_pos hP]
        · intro Q hQ n1 n2
          by_contra hne
          rcases hsupp Q hQ (by
            rcases hxy with ⟨rfl, rfl⟩ | ⟨rfl, rfl⟩
            · exact Or.inl hne
            · exact Or.inr hne) with e | ⟨f', hf', fi', fj', e⟩
          · exact n1 e
          · rw [coface_unique f hf f' hf' i hi j hj hij fi fj fi' fj'] at n2
            exact n2 e
      rw [hsum a b (Or.inl ⟨rfl, rfl⟩), hsum b a (Or.inr ⟨rfl, rfl⟩), cab, cba]
      by_cases hQ : CellIn g.maxCoord (acrossFace P f)
      · have va : vid g (acrossFace P f) (oppSlot f i) = some a := by
          unfold vid at ha ⊢; rw [slotEdge_across hf hi fi]; exact ha
        have vb : vid g (acrossFace P f) (oppSlot f j) = some b := by
          unfold vid at hb ⊢; rw [slotEdge_across hf hj fj]; exact hb
        have hQc : acrossFace P f ∈ mcCells g := (mem_mcCells h).2 ⟨hQ, _, k1, by rw [va]; rfl⟩
        rw [if_pos hQc, if_pos hQc, cellSide_count h hQ k1 k2 va vb, cellSide_count h hQ k2 k1 vb va,
          across_count hf hj hi fj fi, across_count hf hi hj fi fj]
        have := t3 hcf
        exact ⟨by omega, Or.inl (by omega)⟩
      · have hQc : acrossFace P f ∉ mcCells g := fun hm => hQ (hcell _ hm)
        rw [if_neg hQc, if_neg hQc]
        refine ⟨by omega, Or.inr ?_⟩
        obtain ⟨ea, hea, la⟩ := edgeOf ha
        obtain ⟨eb, heb, lb⟩ := edgeOf hb
        refine ⟨ea, eb, hea, heb, ?_⟩
        rw [la, lb]
        exact onBoundary_of_face hf hi hj fi fj hPc hQ
    · have hcf' : coface i j = false := by simpa using hcf
      have hsum : ∀ x y, ((x = a ∧ y = b) ∨ (x = b ∧ y = a)) →
          ((mcCells g).map fun P => (sides (cellTriangles g P)).count (x, y)).sum =
          (sides (cellTriangles g P)).count (x, y) := by
        intro x y hxy
        have hfar : acrossFace P 0 ≠ P := acrossFace_ne P 0
        have hz : ∀ Q ∈ mcCells g, Q ≠ P → (sides (cellTriangles g Q)).count (x, y) = 0 := by
          intro Q hQ n1
          by_contra hne
          rcases hsupp Q hQ (by
            rcases hxy with ⟨rfl, rfl⟩ | ⟨rfl, rfl⟩
            · exact Or.inl hne
            · exact Or.inr hne) with e | ⟨f', hf', fi', fj', e⟩
          · exact n1 e
          · apply hcf
            unfold coface
            exact List.any_eq_true.2 ⟨f', List.mem_range.2 hf', by rw [fi', fj']; rfl⟩
        rw [sum_two (mcCells g) hnd _ P (acrossFace P 0) hfar.symm (fun Q hQ n1 _ => hz Q hQ n1), if_pos hP]
        by_cases hm : acrossFace P 0 ∈ mcCells g
        · rw [if_pos hm, hz _ hm hfar]; rfl
        · rw [if_neg hm]; rfl
      rw [hsum a b (Or.inl ⟨rfl, rfl⟩), hsum b a (Or.inr ⟨rfl, rfl⟩), cab, cba]
      exact ⟨t1, Or.inl (t4 hcf')⟩
  · -- no cell has both
    have hz : ∀ Q ∈ mcCells g, (sides (cellTriangles g Q)).count (a, b) = 0 ∧
        (sides (cellTriangles g Q)).count (b, a) = 0 := by
      intro Q hQ
      constructor
      · by_contra hne
        obtain ⟨i', hi', j', hj', hs, h1, h2⟩ := cellSide_slots h (hcell Q hQ)
            (List.count_pos_iff.1 (Nat.pos_of_ne_zero hne))
        exact hex ⟨Q, hQ, i', hi', j', hj', (sides_table (cellMask_lt g Q) hs).2.2.1, h1, h2⟩
      · by_contra hne
        obtain ⟨i', hi', j', hj', hs, h1, h2⟩ := cellSide_slots h (hcell Q hQ)
            (List.count_pos_iff.1 (Nat.pos_of_ne_zero hne))
        exact hex ⟨Q, hQ, j', hj', i', hi', (sides_table (cellMask_lt g Q) hs).2.2.1.symm, h2, h1⟩
    have e1 : ((mcCells g).map fun P => (sides (cellTriangles g P)).count (a, b)).sum = 0 := by
      apply sum_zero; intro x hx
      obtain ⟨Q, hQ, rfl⟩ := List.mem_map.1 hx
      exact (hz Q hQ).1
    have e2 : ((mcCells g).map fun P => (sides (cellTriangles g P)).count (b, a)).sum = 0 := by
      apply sum_zero; intro x hx
      obtain ⟨Q, hQ, rfl⟩ := List.mem_map.1 hx
      exact (hz Q hQ).2
    rw [e1, e2]
    exact ⟨by omega, Or.inl rfl⟩

/-- Non-vacuity for C15/C16: a filled grid exists (the demo grid has crossing edges, see `Props/Grid.lean`), so marching
cubes succeeds on it and returns at least one vertex. -/
example : ∃ g : Grid ℚ, Filled g ∧ ∃ r, marchingCubes id g = some r ∧ 0 < r.mesh.vertices.length := by
  obtain ⟨g', e, hf⟩ := demo_filled
  obtain ⟨r, hr, -, -, -, h5, -⟩ := C15_valid hf id
  refine ⟨g', hf, r, hr, ?_⟩
  have hmem := ((C07_fill_edges demoGrid_reachable e .X).1 _).2 ⟨⟨0, 1, 0⟩, by decide,
    by norm_num [Crosses, demoField, worldPos, demoGrid, edgeEnd, shift], rfl⟩
  obtain ⟨v, hv⟩ := List.mem_iff_getElem?.1 ((mem_edgeList hf).2 hmem)
  have := h5 v _ hv
  exact Nat.lt_of_le_of_lt (Nat.zero_le _) (List.getElem?_eq_some_iff.1 this).1

end Isomesh
