import Verif.Proofs.MarchingCubes

/-! What marching cubes computes. -/

set_option linter.unusedSectionVars false

namespace Isomesh
open Spec

section
variable {K : Type} [Add K] [Sub K] [Mul K] [Div K] [Zero K] [IntCast K] [LE K] [LT K] [DecidableLE K] [DecidableLT K]

/-- Number of the mesh vertex of a lattice edge. -/
def edgeIdx (g : Grid K) (le : LEdge) : Option Nat :=
  (edgeList g).findIdx? (fun e => decide (LEdge.ofGridEdge e = le))

theorem Spec.Stored.edgeIdx_eq_some {g : Grid K} (h : Stored g) {le : LEdge} {v : Nat} :
    edgeIdx g le = some v ↔ ∃ e, (edgeList g)[v]? = some e ∧ LEdge.ofGridEdge e = le := by
  unfold edgeIdx
  rw [List.findIdx?_eq_some_iff_getElem]
  constructor
  · rintro ⟨hv, h1, h2⟩
    exact ⟨_, List.getElem?_eq_getElem hv, by simpa using h1⟩
  · rintro ⟨e, he, hl⟩
    obtain ⟨hv, rfl⟩ := List.getElem?_eq_some_iff.1 he
    refine ⟨hv, by simpa using hl, ?_⟩
    intro j hj
    have := (List.pairwise_iff_getElem.1 (Stored.edgeList_nodup h)) j v (by omega) hv hj
    rw [hl] at this
    simpa using this

theorem edgeIdx_eq_some {g : Grid K} (h : Filled g) {le : LEdge} {v : Nat} :
    edgeIdx g le = some v ↔ ∃ e, (edgeList g)[v]? = some e ∧ LEdge.ofGridEdge e = le :=
  Stored.edgeIdx_eq_some h.stored

theorem edgeIdx_isSome {g : Grid K} (h : Filled g) {le : LEdge} :
    (edgeIdx g le).isSome ↔ CrossingEdge g le.axis le.at_ := by
  rw [Option.isSome_iff_exists]
  constructor
  · rintro ⟨v, hv⟩
    obtain ⟨e, he, rfl⟩ := (edgeIdx_eq_some h).1 hv
    exact h.crossing ((mem_edgeList h).1 (List.mem_of_getElem? he))
  · intro hc
    obtain ⟨e, he, hl⟩ := (h.edge_iff _ _).2 hc
    have hax := h.edge_axis _ _ he
    have : e ∈ edgeList g := (mem_edgeList h).2 (by rw [hax]; exact he)
    obtain ⟨v, hv⟩ := List.mem_iff_getElem?.1 this
    exact ⟨v, (edgeIdx_eq_some h).2 ⟨e, hv, by cases le; simp_all [LEdge.ofGridEdge]⟩⟩

theorem Spec.Stored.edgeIdx_inj {g : Grid K} (h : Stored g) {a b : LEdge} {v : Nat} (ha : edgeIdx g a = some v)
    (hb : edgeIdx g b = some v) : a = b := by
  obtain ⟨e, he, rfl⟩ := (Stored.edgeIdx_eq_some h).1 ha
  obtain ⟨e', he', rfl⟩ := (Stored.edgeIdx_eq_some h).1 hb
  rw [he] at he'; cases he'; rfl

theorem edgeIdx_inj {g : Grid K} (h : Filled g) {a b : LEdge} {v : Nat} (ha : edgeIdx g a = some v)
    (hb : edgeIdx g b = some v) : a = b :=
  Stored.edgeIdx_inj h.stored ha hb

theorem Spec.Stored.edgeIdx_lt {g : Grid K} (h : Stored g) {a : LEdge} {v : Nat} (ha : edgeIdx g a = some v) :
    v < (edgeList g).length := by
  obtain ⟨e, he, -⟩ := (Stored.edgeIdx_eq_some h).1 ha
  exact (List.getElem?_eq_some_iff.1 he).1

theorem edgeIdx_lt {g : Grid K} (h : Filled g) {a : LEdge} {v : Nat} (ha : edgeIdx g a = some v) :
    v < (edgeList g).length :=
  Stored.edgeIdx_lt h.stored ha

/-- Mesh vertex number in slot `i` of cell `P`. -/
def vid (g : Grid K) (P : IVec3) (i : Nat) : Option Nat := edgeIdx g (slotEdge P i)

/-- Where the edges along `D` start in `edgeList`. -/
def edgeBase (g : Grid K) : Axis → Nat
  | .X => 0
  | .Y => (g.edges .X).length
  | .Z => (g.edges .X).length + (g.edges .Y).length

theorem Spec.Stored.edgeList_base {g : Grid K} (h : Stored g) (D : Axis) (v : Nat) (e : GridEdge K) :
    ((edgeList g)[v]? = some e ∧ e.axis = D) ↔ edgeBase g D ≤ v ∧ (g.edges D)[v - edgeBase g D]? = some e := by
  constructor
  · rintro ⟨h1, h2⟩
    unfold edgeList at h1
    rw [List.getElem?_append, List.getElem?_append] at h1
    split_ifs at h1 with ha hb
    · have := h.edge_axis _ _ (List.mem_of_getElem? h1)
      rw [h2] at this; subst this
      exact ⟨Nat.zero_le _, h1⟩
    · have := h.edge_axis _ _ (List.mem_of_getElem? h1)
      rw [h2] at this; subst this
      exact ⟨by simp only [edgeBase]; omega, h1⟩
    · have := h.edge_axis _ _ (List.mem_of_getElem? h1)
      rw [h2] at this; subst this
      simp only [List.length_append] at ha h1
      refine ⟨by simp only [edgeBase]; omega, ?_⟩
      simp only [edgeBase]
      exact h1
  · rintro ⟨h1, h2⟩
    refine ⟨?_, h.edge_axis _ _ (List.mem_of_getElem? h2)⟩
    have hl := (List.getElem?_eq_some_iff.1 h2).1
    unfold edgeList
    cases D <;> simp only [edgeBase] at h1 h2 hl
    · rw [List.getElem?_append_left (by simp; omega), List.getElem?_append_left (by omega)]; exact h2
    · rw [List.getElem?_append_left (by simp; omega), List.getElem?_append_right (by omega)]; exact h2
    · rw [List.getElem?_append_right (by simp; omega)]
      simp only [List.length_append]; exact h2

theorem edgeList_base {g : Grid K} (h : Filled g) (D : Axis) (v : Nat) (e : GridEdge K) :
    ((edgeList g)[v]? = some e ∧ e.axis = D) ↔ edgeBase g D ≤ v ∧ (g.edges D)[v - edgeBase g D]? = some e :=
  Stored.edgeList_base h.stored D v e

/-- The cells processed by the main loop, in order. -/
def mcCells (g : Grid K) : List IVec3 :=
  ((List.range g.dataSize).filterMap g.indexToPoint).filter
    (fun P => decide (CellIn g.maxCoord P) && (List.range 12).any fun i => (vid g P i).isSome)

theorem Spec.Stored.mem_mcCells {g : Grid K} (h : Stored g) {P : IVec3} :
    P ∈ mcCells g ↔ CellIn g.maxCoord P ∧ ∃ i < 12, (vid g P i).isSome := by
  unfold mcCells
  simp only [List.mem_filter, List.mem_filterMap, List.mem_range, Bool.and_eq_true, decide_eq_true_eq,
    List.any_eq_true]
  constructor
  · rintro ⟨-, h1, h2⟩; exact ⟨h1, h2⟩
  · rintro ⟨h1, h2⟩
    have hin : InCube g.half P := h1 P (by simp [cellVertices])
    exact ⟨⟨_, Grid.vidx_lt' h.wf hin, Grid.indexToPoint_vidx h.wf hin⟩, h1, h2⟩

theorem mem_mcCells {g : Grid K} (h : Filled g) {P : IVec3} :
    P ∈ mcCells g ↔ CellIn g.maxCoord P ∧ ∃ i < 12, (vid g P i).isSome :=
  Stored.mem_mcCells h.stored

theorem Spec.Stored.mcCells_sorted {g : Grid K} (h : Stored g) :
    (mcCells g).Pairwise (fun a b => g.vidx a < g.vidx b) := by
  unfold mcCells
  apply List.Pairwise.filter
  rw [List.pairwise_filterMap]
  refine List.Pairwise.imp_of_mem ?_ List.pairwise_lt_range
  intro a b ha hb hab p hp q hq
  have key : ∀ i p, i ∈ List.range g.dataSize → g.indexToPoint i = some p → g.vidx p = i := by
    intro i p hi hp
    obtain ⟨q, hq, rfl⟩ := Grid.exists_vidx h.wf (List.mem_range.1 hi)
    rw [Grid.indexToPoint_vidx h.wf hq] at hp
    cases hp; rfl
  rw [key a p ha hp, key b q hb hq]
  exact hab

theorem mcCells_sorted {g : Grid K} (h : Filled g) :
    (mcCells g).Pairwise (fun a b => g.vidx a < g.vidx b) :=
  Stored.mcCells_sorted h.stored

theorem Spec.Stored.slot_sorted {g : Grid K} (h : Stored g) (i : Nat) (hi : i < 12) :
    sortEntries (entriesOf g (slotAxis i) (slotPos i) (g.edges (slotAxis i)) (edgeBase g (slotAxis i))) =
      slotEntries (vid g) g.vidx (mcCells g) i := by
  have hpos : slotPos i < 4 := by interval_cases i <;> decide
  have hcell : ∀ c, CellIn g.maxCoord c → InCube g.half c := fun c hc => hc c (by simp [cellVertices])
  apply sortEntries_eq
  · unfold entriesOf
    rw [List.pairwise_filterMap]
    have hz : ((g.edges (slotAxis i)).zipIdx (edgeBase g (slotAxis i))).Pairwise
        (fun a b => a.1.lesser ≠ b.1.lesser) := by
      have := (h.sorted (slotAxis i))
      have h2 : (((g.edges (slotAxis i)).zipIdx (edgeBase g (slotAxis i))).map Prod.fst).Pairwise
        (fun a b => a.lesser ≠ b.lesser) := by
        rw [List.zipIdx_map_fst]
        exact this.imp (fun hab he => by rw [he] at hab; exact LexYXZ.irrefl _ hab)
      rwa [List.pairwise_map] at h2
    refine hz.imp ?_
    intro a b hab x hx y hy
    unfold entryOf at hx hy
    split_ifs at hx hy with h1 h2
    cases hx; cases hy
    intro he
    exact hab (aroundCell_inj hpos (Grid.vidx_inj h.wf (hcell _ h1) (hcell _ h2) he))
  · exact slotEntries_sorted (Stored.mcCells_sorted h)
  · intro e
    rw [mem_slotEntries]
    unfold entriesOf
    simp only [List.mem_filterMap]
    constructor
    · rintro ⟨⟨r, v⟩, hr, he⟩
      rw [List.mk_mem_zipIdx_iff_le_and_getElem?_sub] at hr
      obtain ⟨hr1, hr2⟩ := (Stored.edgeList_base h _ v r).2 hr
      unfold entryOf at he
      split_ifs at he with hc
      cases he
      have hv : vid g (aroundCell (slotAxis i) r.lesser (slotPos i)) i = some v := by
        unfold vid
        rw [slot_aroundCell i hi]
        exact (Stored.edgeIdx_eq_some h).2 ⟨r, hr1, by rw [← hr2]; rfl⟩
      exact ⟨_, (Stored.mem_mcCells h).2 ⟨hc, i, hi, by rw [hv]; rfl⟩, rfl, hv⟩
    · rintro ⟨P, hP, hk, hv⟩
      obtain ⟨hc, -⟩ := (Stored.mem_mcCells h).1 hP
      obtain ⟨r, hr, hl⟩ := (Stored.edgeIdx_eq_some h).1 hv
      have hax : r.axis = slotAxis i := by
        have := congrArg LEdge.axis hl; exact this
      have hles : r.lesser = (slotEdge P i).at_ := by
        have := congrArg LEdge.at_ hl; exact this
      refine ⟨(r, e.vertexIndex), ?_, ?_⟩
      · rw [List.mk_mem_zipIdx_iff_le_and_getElem?_sub]
        exact (Stored.edgeList_base h _ _ r).1 ⟨hr, hax⟩
      · unfold entryOf
        simp only [hles, aroundCell_slot i hi]
        rw [if_pos hc, hk]

/-- The mesh after collecting, and the main loop as a fold over cells. -/
theorem Spec.Stored.mc_eq_fold {g : Grid K} (h : Stored g) (nrm : Vec3 K → Vec3 K) :
    marchingCubes nrm g =
      ((mcCells g).foldlM (fun mesh c => processCell g (g.vidx c) ((List.range 12).map (vid g c)) mesh)
        ⟨(edgeList g).map (mcVertex nrm), []⟩).map (fun m => ⟨m, g.globalPos, g.step⟩) := by
  have hlen := Stored.edgeList_length h
  simp only [edgeList, List.length_append] at hlen
  unfold marchingCubes collectCellEdges
  rw [Stored.collect_fold h nrm _ (fun e he => he) _ (by simp [Mesh.new]; omega)]
  simp only [Option.bind_eq_bind, Option.bind_some]
  rw [Stored.collect_fold h nrm _ (fun e he => he) _ (by simp [Mesh.new]; omega)]
  simp only [Option.bind_some]
  rw [Stored.collect_fold h nrm _ (fun e he => he) _ (by simp [Mesh.new]; omega)]
  simp only [Option.bind_some]
  simp only [Mesh.new, List.nil_append, List.length_nil, List.length_map, List.map_cons, List.map_nil,
    List.length_append]
  have hs : ∀ i, i < 12 → ∀ D k n, slotAxis i = D → slotPos i = k → edgeBase g D = n →
      sortEntries (entriesOf g D k (g.edges D) n) = slotEntries (vid g) g.vidx (mcCells g) i := by
    rintro i hi D k n rfl rfl rfl
    exact Stored.slot_sorted h i hi
  rw [hs 0 (by omega) .X 2 0 rfl rfl rfl,
    hs 1 (by omega) .X 1 0 rfl rfl rfl,
    hs 2 (by omega) .X 3 0 rfl rfl rfl,
    hs 3 (by omega) .X 0 0 rfl rfl rfl,
    hs 4 (by omega) .Y 2 (g.edges .X).length rfl rfl rfl,
    hs 5 (by omega) .Y 3 (g.edges .X).length rfl rfl rfl,
    hs 6 (by omega) .Y 1 (g.edges .X).length rfl rfl rfl,
    hs 7 (by omega) .Y 0 (g.edges .X).length rfl rfl rfl,
    hs 8 (by omega) .Z 2 ((g.edges .X).length + (g.edges .Y).length) rfl rfl rfl,
    hs 9 (by omega) .Z 3 ((g.edges .X).length + (g.edges .Y).length) rfl rfl rfl,
    hs 10 (by omega) .Z 1 ((g.edges .X).length + (g.edges .Y).length) rfl rfl rfl,
    hs 11 (by omega) .Z 0 ((g.edges .X).length + (g.edges .Y).length) rfl rfl rfl]
  have := mcLoop_eq g (vid g) g.vidx (mcCells g) (Stored.mcCells_sorted h) ?_ ?_
    ⟨(edgeList g).map (mcVertex nrm), []⟩
  · have hr : (List.range 12).map (slotEntries (vid g) g.vidx (mcCells g)) = [slotEntries (vid g) g.vidx (mcCells g) 0,
      slotEntries (vid g) g.vidx (mcCells g) 1, slotEntries (vid g) g.vidx (mcCells g) 2,
      slotEntries (vid g) g.vidx (mcCells g) 3, slotEntries (vid g) g.vidx (mcCells g) 4,
      slotEntries (vid g) g.vidx (mcCells g) 5, slotEntries (vid g) g.vidx (mcCells g) 6,
      slotEntries (vid g) g.vidx (mcCells g) 7, slotEntries (vid g) g.vidx (mcCells g) 8,
      slotEntries (vid g) g.vidx (mcCells g) 9, slotEntries (vid g) g.vidx (mcCells g) 10,
      slotEntries (vid g) g.vidx (mcCells g) 11] := rfl
    rw [← hr]
    have hv : List.map (mcVertex nrm) (g.edges .X) ++ List.map (mcVertex nrm) (g.edges .Y) ++
        List.map (mcVertex nrm) (g.edges .Z) = (edgeList g).map (mcVertex nrm) := by
      simp [edgeList]
    rw [hv, this]
    cases (mcCells g).foldlM (fun mesh c => processCell g (g.vidx c) ((List.range 12).map (vid g c)) mesh)
        ⟨(edgeList g).map (mcVertex nrm), []⟩ <;> rfl
  · intro c hc
    have hin : InCube g.half c := ((Stored.mem_mcCells h).1 hc).1 c (by simp [cellVertices])
    have := Grid.vidx_lt h.wf hin
    have := big_bound h.wf
    unfold kBadIndex
    omega
  · intro c hc; exact ((Stored.mem_mcCells h).1 hc).2

theorem mc_eq_fold {g : Grid K} (h : Filled g) (nrm : Vec3 K → Vec3 K) :
    marchingCubes nrm g =
      ((mcCells g).foldlM (fun mesh c => processCell g (g.vidx c) ((List.range 12).map (vid g c)) mesh)
        ⟨(edgeList g).map (mcVertex nrm), []⟩).map (fun m => ⟨m, g.globalPos, g.step⟩) :=
  Stored.mc_eq_fold h.stored nrm

/-! ### One cell -/

/-- Corner pattern of a cell. -/
def cellMask (g : Grid K) (P : IVec3) : Nat :=
  maskOf (fun i => solidAt g (shift P (cornerPos i).x (cornerPos i).y (cornerPos i).z)) 8

theorem maskOf_lt (p : Nat → Bool) (n : Nat) : maskOf p n < 2 ^ n := by
  apply Nat.lt_pow_two_of_testBit
  intro i hi
  rw [testBit_maskOf]
  simp; omega

theorem cellMask_lt (g : Grid K) (P : IVec3) : cellMask g P < 256 := maskOf_lt _ 8

theorem solid_cellMask (g : Grid K) (P : IVec3) {i : Nat} (hi : i < 8) :
    solid (cellMask g P) i = solidAt g (shift P (cornerPos i).x (cornerPos i).y (cornerPos i).z) := by
  unfold solid cellMask
  rw [testBit_maskOf]
  simp [hi]

theorem foldl_mask_eq (p : Nat → Bool) (n : Nat) :
    (List.range n).foldl (fun (w : Nat) (i : Nat) => if p i then w ||| (1 <<< i) else w) 0 = maskOf p n := by
  induction n with
  | zero => rfl
  | succ n ih =>
    rw [List.range_succ, List.foldl_append, ih]
    rfl


theorem Spec.Stored.getVertexMask_eq {g : Grid K} (h : Stored g) {P : IVec3} (hP : CellIn g.maxCoord P) :
    getVertexMask g (g.vidx P) = some (cellMask g P) := by
  obtain ⟨i, hi, -, -, hm⟩ := cell_vertices_wf h.wf P hP
  obtain ⟨-, rfl⟩ := Grid.pointToIndex_some h.wf hi
  have hw : ∀ v ∈ cellVertices P, ∃ m, g.at v = some m := fun v hv => h.written v (hP v hv)
  -- material of corner i
  have key : ∀ l : List IVec3, (∀ v ∈ l, ∃ m, g.at v = some m) → ∃ ms, l.mapM g.at = some ms ∧
      ∀ (i : Nat) (v : IVec3), l[i]? = some v → ∃ m, ms[i]? = some m ∧ g.at v = some m := by
    intro l
    induction l with
    | nil => intro _; exact ⟨[], rfl, by simp⟩
    | cons a l ih =>
      intro hl
      obtain ⟨m, hm⟩ := hl a List.mem_cons_self
      obtain ⟨ms, hms, hi⟩ := ih (fun v hv => hl v (List.mem_cons_of_mem _ hv))
      refine ⟨m :: ms, ?_, ?_⟩
      · rw [List.mapM_cons, hm, hms]; rfl
      · intro i v hv
        cases i with
        | zero => simp at hv; subst hv; exact ⟨m, rfl, hm⟩
        | succ i => simp at hv; simpa using hi i v hv
  obtain ⟨ms, hms, hi8⟩ := key _ hw
  unfold getVertexMask
  rw [hm, hms]
  simp only [Option.bind_eq_bind, Option.bind_some]
  have hfold : ∀ n ≤ 8, (List.range n).foldlM (fun (mask : Nat) (i : Nat) => (ms[i]?).bind fun m =>
      some (if m ≠ .Empty then mask ||| (1 <<< i) else mask)) 0 = some (maskOf (fun i => solidAt g
        (shift P (cornerPos i).x (cornerPos i).y (cornerPos i).z)) n) := by
    intro n
    induction n with
    | zero => intro _; rfl
    | succ n ih =>
      intro hn
      rw [List.range_succ, List.foldlM_append, ih (by omega)]
      have hv : (cellVertices P)[n]? = some (shift P (cornerPos n).x (cornerPos n).y (cornerPos n).z) := by
        obtain ⟨x, y, z⟩ := P
        have : n < 8 := by omega
        interval_cases n <;> simp [cellVertices, cornerPos, shift]
      obtain ⟨m, hm1, hm2⟩ := hi8 n _ hv
      simp only [List.foldlM_cons, List.foldlM_nil, Option.bind_eq_bind, Option.bind_some, hm1]
      have hsol : solidAt g (shift P (cornerPos n).x (cornerPos n).y (cornerPos n).z) = decide (m ≠ .Empty) := by
        unfold solidAt; rw [hm2]
      rw [maskOf, hsol]
      by_cases hme : m = .Empty <;> simp [hme]
  exact hfold 8 le_rfl

theorem getVertexMask_eq {g : Grid K} (h : Filled g) {P : IVec3} (hP : CellIn g.maxCoord P) :
    getVertexMask g (g.vidx P) = some (cellMask g P) :=
  Stored.getVertexMask_eq h.stored hP

theorem slotEdge_ends (P : IVec3) (i : Nat) (hi : i < 12) :
    (slotEdge P i).at_ = shift P (cornerPos (edgeCorner i 0)).x (cornerPos (edgeCorner i 0)).y
      (cornerPos (edgeCorner i 0)).z ∧
    edgeEnd (slotEdge P i).axis (slotEdge P i).at_ = shift P (cornerPos (edgeCorner i 1)).x
      (cornerPos (edgeCorner i 1)).y (cornerPos (edgeCorner i 1)).z := by
  obtain ⟨x, y, z⟩ := P
  refine ⟨rfl, ?_⟩
  interval_cases i <;> simp [slotAxis, slotEdge, slotOff, edgeCorner, kCellEdgeEndpoint,
    cornerPos, shift, edgeEnd]

theorem edgeCorner_lt (i k : Nat) (hi : i < 12) (hk : k < 2) : edgeCorner i k < 8 := by
  interval_cases k <;> interval_cases i <;> decide

/-- Slot `i` of an in-grid cell holds a vertex iff the corner pattern crosses there. -/
theorem vid_isSome {g : Grid K} (h : Filled g) {P : IVec3} (hP : CellIn g.maxCoord P) {i : Nat} (hi : i < 12) :
    (vid g P i).isSome = Spec.crosses (cellMask g P) i := by
  obtain ⟨h0, h1⟩ := slotEdge_ends P i hi
  rw [Bool.eq_iff_iff]
  unfold vid
  rw [edgeIdx_isSome h]
  unfold CrossingEdge Spec.crosses
  rw [edgeVertices_iff, solid_cellMask g P (edgeCorner_lt i 0 hi (by omega)),
    solid_cellMask g P (edgeCorner_lt i 1 hi (by omega)), h0] 
  rw [h0] at h1
  rw [h1]
  have hc : ∀ c < 8, InCube g.maxCoord (shift P (cornerPos c).x (cornerPos c).y (cornerPos c).z) := by
    intro c hc
    apply hP
    obtain ⟨x, y, z⟩ := P
    interval_cases c <;> simp [cellVertices, cornerPos, shift]
  simp [hc _ (edgeCorner_lt i 0 hi (by omega)), hc _ (edgeCorner_lt i 1 hi (by omega))]

/-- Well-formed table row: groups of three edge numbers, then `-1`. -/
def rowOK : List Int → Bool
  | [] => false
  | a :: rest =>
    if a = -1 then true
    else match rest with
      | _ :: _ :: rest' => decide (0 ≤ a) && rowOK rest'
      | _ => false

theorem rows_ok : ∀ m < 256, rowOK (kMcTriangleTable.getD m []) = true := by decide +kernel

theorem emitTriangles_eq (vs : List (Option Nat)) (row : List Int) (hrow : rowOK row = true) (mesh : Mesh K)
    (hv : ∀ t ∈ rowTriangles row, ∃ a b c, vs[t.1]? = some (some a) ∧ vs[t.2.1]? = some (some b) ∧
      vs[t.2.2]? = some (some c) ∧ a < mesh.vertices.length ∧ b < mesh.vertices.length ∧ c < mesh.vertices.length ∧
      a ≠ b ∧ b ≠ c ∧ a ≠ c) :
    emitTriangles vs row mesh = some ⟨mesh.vertices, mesh.indices ++ (rowTriangles row).flatMap
      (fun t => [(vs.getD t.1 none).getD 0, (vs.getD t.2.1 none).getD 0, (vs.getD t.2.2 none).getD 0])⟩ := by
  induction row using rowTriangles.induct generalizing mesh with
  | case1 a b c rest ha =>
    unfold rowOK at hrow
    unfold rowTriangles emitTriangles
    by_cases h1 : a = -1
    · simp [h1]
    · rw [if_neg h1] at hrow
      simp only [Bool.and_eq_true, decide_eq_true_eq] at hrow
      omega
  | case2 a b c rest ha ih =>
    have h1 : ¬ a = -1 := by omega
    unfold rowOK at hrow
    rw [if_neg h1] at hrow
    simp only [Bool.and_eq_true, decide_eq_true_eq] at hrow
    have hrt : rowTriangles (a :: b :: c :: rest) = (a.toNat, b.toNat, c.toNat) :: rowTriangles rest := by
      rw [rowTriangles, if_neg ha]
    rw [hrt] at hv ⊢
    obtain ⟨x, y, z, hx, hy, hz, lx, ly, lz, n1, n2, n3⟩ := hv _ List.mem_cons_self
    unfold emitTriangles
    rw [if_neg h1]
    simp only [hx, hy, hz, Option.join_some, Option.bind_eq_bind, Option.bind_some]
    unfold Mesh.addTriangle
    rw [if_pos ⟨lx, ly, lz⟩, if_neg (by omega)]
    simp only [Option.bind_some]
    rw [ih hrow.2 ⟨mesh.vertices, mesh.indices ++ [x, y, z]⟩ (fun t ht => hv t (List.mem_cons_of_mem _ ht))]
    simp [List.getD_eq_getElem?_getD, hx, hy, hz]
  | case3 l hl =>
    unfold rowTriangles emitTriangles
    match l, hl with
    | [], _ => simp [rowOK] at hrow
    | [a], _ => 
      simp [rowOK] at hrow
      simp [hrow]
    | [a, b], _ =>
      simp [rowOK] at hrow
      simp [hrow]
    | a :: b :: c :: r, hl => exact absurd rfl (hl a b c r)

/-- Triangles emitted for cell `P`. -/
def cellTriangles (g : Grid K) (P : IVec3) : List (Nat × Nat × Nat) :=
  (mcTriangles (cellMask g P)).map fun t => ((vid g P t.1).getD 0, (vid g P t.2.1).getD 0, (vid g P t.2.2).getD 0)

/-- Flatten triangles into an index list. -/
def flatTri (ts : List (Nat × Nat × Nat)) : List Nat := ts.flatMap fun t => [t.1, t.2.1, t.2.2]

theorem slotEdge_inj {P : IVec3} {i j : Nat} (hi : i < 12) (hj : j < 12) (h : slotEdge P i = slotEdge P j) : i = j := by
  have key : ∀ i < 12, ∀ j < 12, slotAxis i = slotAxis j → slotOff i = slotOff j → i = j := by decide +kernel
  have h1 := congrArg LEdge.axis h
  have h2 := congrArg LEdge.at_ h
  refine key i hi j hj h1 ?_
  simp only [slotEdge, shift, IVec3.mk.injEq] at h2
  generalize slotOff i = a at *
  generalize slotOff j = b at *
  cases a; cases b
  simp only [IVec3.mk.injEq] at *
  omega

theorem Spec.Stored.vid_some {g : Grid K} (h : Stored g) {P : IVec3} {i : Nat}
    (hv : (vid g P i).isSome = true) : ∃ v, vid g P i = some v ∧ v < (edgeList g).length := by
  obtain ⟨v, hv⟩ := Option.isSome_iff_exists.1 hv
  exact ⟨v, hv, Stored.edgeIdx_lt h hv⟩

theorem vid_some {g : Grid K} (h : Filled g) {P : IVec3} (hP : CellIn g.maxCoord P) {i : Nat} (hi : i < 12)
    (hc : Spec.crosses (cellMask g P) i = true) : ∃ v, vid g P i = some v ∧ v < (edgeList g).length :=
  Stored.vid_some h.stored ((vid_isSome h hP hi).trans hc)

theorem Spec.Stored.vid_inj {g : Grid K} (h : Stored g) {P : IVec3} {i j : Nat} (hi : i < 12) (hj : j < 12) {v : Nat}
    (h1 : vid g P i = some v) (h2 : vid g P j = some v) : i = j :=
  slotEdge_inj hi hj (Stored.edgeIdx_inj h h1 h2)

theorem vid_inj {g : Grid K} (h : Filled g) {P : IVec3} {i j : Nat} (hi : i < 12) (hj : j < 12) {v : Nat}
    (h1 : vid g P i = some v) (h2 : vid g P j = some v) : i = j :=
  Stored.vid_inj h.stored hi hj h1 h2

theorem Spec.Stored.cellTriangles_ok {g : Grid K} (h : Stored g) {P : IVec3} (hv : ∀ i < 12, (vid g P i).isSome = Spec.crosses (cellMask g P) i)
    {t : Nat × Nat × Nat} (ht : t ∈ mcTriangles (cellMask g P)) :
    ∃ a b c, vid g P t.1 = some a ∧ vid g P t.2.1 = some b ∧ vid g P t.2.2 = some c ∧ a < (edgeList g).length ∧
      b < (edgeList g).length ∧ c < (edgeList g).length ∧ a ≠ b ∧ b ≠ c ∧ a ≠ c := by
  obtain ⟨-, -, -, -, htab⟩ := C14_triangle_table.2 _ (cellMask_lt g P)
  obtain ⟨l1, l2, l3, n1, n2, n3, c1, c2, c3⟩ := htab t ht
  obtain ⟨a, ha, la⟩ := Stored.vid_some h ((hv _ l1).trans c1)
  obtain ⟨b, hb, lb⟩ := Stored.vid_some h ((hv _ l2).trans c2)
  obtain ⟨c, hc, lc⟩ := Stored.vid_some h ((hv _ l3).trans c3)
  refine ⟨a, b, c, ha, hb, hc, la, lb, lc, ?_, ?_, ?_⟩
  · rintro rfl; exact n1 (Stored.vid_inj h l1 l2 ha hb)
  · rintro rfl; exact n2 (Stored.vid_inj h l2 l3 hb hc)
  · rintro rfl; exact n3 (Stored.vid_inj h l1 l3 ha hc)

theorem cellTriangles_ok {g : Grid K} (h : Filled g) {P : IVec3} (hP : CellIn g.maxCoord P)
    {t : Nat × Nat × Nat} (ht : t ∈ mcTriangles (cellMask g P)) :
    ∃ a b c, vid g P t.1 = some a ∧ vid g P t.2.1 = some b ∧ vid g P t.2.2 = some c ∧ a < (edgeList g).length ∧
      b < (edgeList g).length ∧ c < (edgeList g).length ∧ a ≠ b ∧ b ≠ c ∧ a ≠ c :=
  Stored.cellTriangles_ok h.stored (fun _ hi => vid_isSome h hP hi) ht

/-- The mask of the edges of a cell that have records. -/
theorem edgeMask_testBit (g : Grid K) (P : IVec3) (i : Nat) :
    (edgeMaskOf ((List.range 12).map (vid g P))).testBit i = (decide (i < 12) && (vid g P i).isSome) := by
  have hget : ∀ i < 12, ((List.range 12).map (vid g P))[i]? = some (vid g P i) := by
    intro i hi; simp [hi]
  unfold edgeMaskOf
  rw [foldl_mask_eq (fun i => (((List.range 12).map (vid g P)).getD i none).isSome) 12, testBit_maskOf]
  by_cases hi : i < 12
  · rw [List.getD_eq_getElem?_getD, hget i hi]; simp [hi]
  · simp [hi]

/-- A cell whose recorded edges are not those its corners ask for violates the assertion. -/
theorem Spec.Stored.processCell_none {g : Grid K} (h : Stored g) {P : IVec3} (hP : CellIn g.maxCoord P) (mesh : Mesh K)
    {i : Nat} (hi : i < 12) (hv : (vid g P i).isSome ≠ Spec.crosses (cellMask g P) i) :
    processCell g (g.vidx P) ((List.range 12).map (vid g P)) mesh = none := by
  obtain ⟨w, hw, hw12, hbits⟩ := C14_edge_mask.2 _ (cellMask_lt g P)
  have hmask : edgeMaskOf ((List.range 12).map (vid g P)) ≠ w := by
    intro he
    apply hv
    rw [← hbits i hi, ← he, edgeMask_testBit]
    simp [hi]
  unfold processCell
  rw [Stored.getVertexMask_eq h hP]
  simp only [Option.bind_eq_bind, Option.bind_some, hw, hmask, if_false]

theorem Spec.Stored.processCell_eq {g : Grid K} (h : Stored g) {P : IVec3} (hP : CellIn g.maxCoord P)
    (hv : ∀ i < 12, (vid g P i).isSome = Spec.crosses (cellMask g P) i) (mesh : Mesh K)
    (hm : mesh.vertices.length = (edgeList g).length) :
    processCell g (g.vidx P) ((List.range 12).map (vid g P)) mesh =
      some ⟨mesh.vertices, mesh.indices ++ flatTri (cellTriangles g P)⟩ := by
  have hlt := cellMask_lt g P
  obtain ⟨w, hw, hw12, hbits⟩ := C14_edge_mask.2 _ hlt
  have hget : ∀ i < 12, ((List.range 12).map (vid g P))[i]? = some (vid g P i) := by
    intro i hi; simp [hi]
  have hmask : edgeMaskOf ((List.range 12).map (vid g P)) = w := by
    unfold edgeMaskOf
    rw [foldl_mask_eq (fun i => (((List.range 12).map (vid g P)).getD i none).isSome) 12]
    apply Nat.eq_of_testBit_eq
    intro i
    rw [testBit_maskOf]
    by_cases hi : i < 12
    · rw [hbits i hi, List.getD_eq_getElem?_getD, hget i hi]
      simp [hi, hv i hi]
    · have : w.testBit i = false := Nat.testBit_lt_two_pow (lt_of_lt_of_le hw12 (by
        calc 4096 = 2 ^ 12 := by norm_num
          _ ≤ 2 ^ i := Nat.pow_le_pow_right (by norm_num) (by omega)))
      simp [hi, this]
  have hrow : kMcTriangleTable[cellMask g P]? = some (kMcTriangleTable.getD (cellMask g P) []) := by
    have : cellMask g P < kMcTriangleTable.length := by rw [C14_triangle_table.1]; exact hlt
    rw [List.getD_eq_getElem _ _ this, List.getElem?_eq_getElem this]
  unfold processCell
  rw [Stored.getVertexMask_eq h hP]
  simp only [Option.bind_eq_bind, Option.bind_some, hw, hmask, if_true, hrow]
  obtain ⟨-, -, -, -, htab⟩ := C14_triangle_table.2 _ hlt
  rw [emitTriangles_eq _ _ (rows_ok _ hlt)]
  · congr 3
    unfold flatTri cellTriangles mcTriangles
    rw [List.flatMap_map]
    apply List.flatMap_congr
    intro t ht
    obtain ⟨l1, l2, l3, -⟩ := htab t ht
    simp [List.getD_eq_getElem?_getD, l1, l2, l3]
  · intro t ht
    obtain ⟨l1, l2, l3, -⟩ := htab t ht
    obtain ⟨a, b, c, ha, hb, hc, r⟩ := Stored.cellTriangles_ok h hv ht
    rw [hget _ l1, hget _ l2, hget _ l3, hm]
    exact ⟨a, b, c, by rw [ha], by rw [hb], by rw [hc], r⟩

theorem processCell_eq {g : Grid K} (h : Filled g) {P : IVec3} (hP : CellIn g.maxCoord P) (mesh : Mesh K)
    (hm : mesh.vertices.length = (edgeList g).length) :
    processCell g (g.vidx P) ((List.range 12).map (vid g P)) mesh =
      some ⟨mesh.vertices, mesh.indices ++ flatTri (cellTriangles g P)⟩ :=
  Stored.processCell_eq h.stored hP (fun _ hi => vid_isSome h hP hi) mesh hm

/-- What marching cubes returns on a grid whose records are those the corners of the visited cells ask for. -/
theorem Spec.Stored.mc_result {g : Grid K} (h : Stored g)
    (hv : ∀ P ∈ mcCells g, ∀ i < 12, (vid g P i).isSome = Spec.crosses (cellMask g P) i) (nrm : Vec3 K → Vec3 K) :
    marchingCubes nrm g = some ⟨⟨(edgeList g).map (mcVertex nrm),
      flatTri ((mcCells g).flatMap (cellTriangles g))⟩, g.globalPos, g.step⟩ := by
  rw [Stored.mc_eq_fold h]
  have key : ∀ (cs : List IVec3) (mesh : Mesh K), (∀ c ∈ cs, c ∈ mcCells g) →
      mesh.vertices.length = (edgeList g).length →
      cs.foldlM (fun mesh c => processCell g (g.vidx c) ((List.range 12).map (vid g c)) mesh) mesh =
        some ⟨mesh.vertices, mesh.indices ++ flatTri (cs.flatMap (cellTriangles g))⟩ := by
    intro cs
    induction cs with
    | nil => intro mesh _ _; simp [flatTri]
    | cons c cs ih =>
      intro mesh hc hm
      rw [List.foldlM_cons, Stored.processCell_eq h ((Stored.mem_mcCells h).1 (hc c List.mem_cons_self)).1 (hv c (hc c List.mem_cons_self)) mesh hm]
      simp only [Option.bind_eq_bind, Option.bind_some]
      rw [ih _ (fun c h => hc c (List.mem_cons_of_mem _ h)) (by simpa using hm)]
      simp [flatTri]
  rw [key _ _ (fun c hc => hc) (by simp)]
  simp

/-- What marching cubes returns on a consistent grid. -/
theorem mc_result {g : Grid K} (h : Filled g) (nrm : Vec3 K → Vec3 K) :
    marchingCubes nrm g = some ⟨⟨(edgeList g).map (mcVertex nrm),
      flatTri ((mcCells g).flatMap (cellTriangles g))⟩, g.globalPos, g.step⟩ :=
  Stored.mc_result h.stored (fun _ hP _ hi => vid_isSome h ((mem_mcCells h).1 hP).1 hi) nrm

/-- Marching cubes fails (violates its assertion) exactly if the recorded edges of some visited cell are not those its corners ask for. -/
theorem Spec.Stored.mc_none_iff {g : Grid K} (h : Stored g) (nrm : Vec3 K → Vec3 K) :
    marchingCubes nrm g = none ↔ ∃ P ∈ mcCells g, ∃ i < 12, (vid g P i).isSome ≠ Spec.crosses (cellMask g P) i := by
  constructor
  · intro hn
    by_contra hc
    push Not at hc
    rw [Stored.mc_result h hc] at hn
    cases hn
  · rintro ⟨P, hP, i, hi, hne⟩
    rw [Stored.mc_eq_fold h]
    have key : ∀ (cs : List IVec3) (mesh : Mesh K), (∀ c ∈ cs, c ∈ mcCells g) → P ∈ cs →
        cs.foldlM (fun mesh c => processCell g (g.vidx c) ((List.range 12).map (vid g c)) mesh) mesh = none := by
      intro cs
      induction cs with
      | nil => intro mesh _ hm; cases hm
      | cons c cs ih =>
        intro mesh hcs hm
        rw [List.foldlM_cons]
        rcases List.mem_cons.1 hm with rfl | hm
        · rw [Stored.processCell_none h ((Stored.mem_mcCells h).1 hP).1 mesh hi hne]; rfl
        · cases hpc : processCell g (g.vidx c) ((List.range 12).map (vid g c)) mesh with
          | none => rfl
          | some m => exact ih m (fun c hc => hcs c (List.mem_cons_of_mem _ hc)) hm
    rw [key _ _ (fun c hc => hc) hP]
    rfl

theorem triangles_flatTri (ts : List (Nat × Nat × Nat)) : triangles (flatTri ts) = ts := by
  induction ts with
  | nil => rfl
  | cons t ts ih => simp only [flatTri, List.flatMap_cons] at *; simp [triangles, ih]

end
end Isomesh
