import Verif.Spec.DualContouring
import Verif.Props.MarchingCubes
import Verif.Props.QefSolve
import Verif.Props.MaterialFilter

/-! Helper lemmas for uniform dual contouring. -/

namespace Isomesh
open Spec

set_option linter.unusedSectionVars false
variable {K : Type} [Add K] [_root_.Sub K] [Mul K] [Div K] [Neg K] [Zero K] [One K] [OfNat K 2] [OfScientific K] [NatCast K] [IntCast K]
  [Fabs K] [Elem K] [LinearOrder K] [RoundedLaws K]

/-! ### Cells around an edge -/

theorem around_iff {D : Axis} {p P : IVec3} : P ∈ cellsAroundEdge D p ↔ EdgeOfCell P D p := by
  obtain ⟨x, y, z⟩ := p
  obtain ⟨a, b, c⟩ := P
  unfold EdgeOfCell
  constructor
  · intro h
    cases D <;> simp only [cellsAroundEdge, shift, List.mem_cons, List.not_mem_nil, or_false, IVec3.mk.injEq] at h <;>
    rcases h with ⟨rfl, rfl, rfl⟩ | ⟨rfl, rfl, rfl⟩ | ⟨rfl, rfl, rfl⟩ | ⟨rfl, rfl, rfl⟩ <;>
    simp [edgeVertices, cellVertices, shift]
  · intro h
    have key : ∀ q : IVec3, q ∈ cellVertices ⟨a, b, c⟩ →
        (q.x = a ∨ q.x = a + 1) ∧ (q.y = b ∨ q.y = b + 1) ∧ (q.z = c ∨ q.z = c + 1) := by
      intro q hq
      simp only [cellVertices, shift, List.mem_cons, List.not_mem_nil, or_false] at hq
      rcases hq with rfl | rfl | rfl | rfl | rfl | rfl | rfl | rfl <;> simp
    cases D <;> simp only [edgeVertices, List.mem_cons, List.not_mem_nil, or_false, forall_eq_or_imp, forall_eq] at h <;>
    · obtain ⟨k1, k2, k3⟩ := key _ h.1
      obtain ⟨l1, l2, l3⟩ := key _ h.2
      clear h key
      simp only [cellsAroundEdge, shift, List.mem_cons, List.not_mem_nil, or_false, IVec3.mk.injEq] at *
      omega

theorem around_nodup (D : Axis) (p : IVec3) : (cellsAroundEdge D p).Nodup := by
  obtain ⟨x, y, z⟩ := p
  cases D <;> simp [cellsAroundEdge, shift]

theorem slot_of_edgeOfCell {P : IVec3} {D : Axis} {p : IVec3} (h : EdgeOfCell P D p) :
    ∃ i < 12, slotEdge P i = ⟨D, p⟩ := by
  rw [← around_iff] at h
  obtain ⟨x, y, z⟩ := p
  obtain ⟨a, b, c⟩ := P
  cases D <;> simp only [cellsAroundEdge, shift, List.mem_cons, List.not_mem_nil, or_false, IVec3.mk.injEq] at h <;>
    rcases h with ⟨rfl, rfl, rfl⟩ | ⟨rfl, rfl, rfl⟩ | ⟨rfl, rfl, rfl⟩ | ⟨rfl, rfl, rfl⟩
  · exact ⟨3, by omega, by simp [slotEdge, slotAxis, slotOff, edgeCorner, kCellEdgeEndpoint, cornerPos, shift]⟩
  · exact ⟨1, by omega, by simp [slotEdge, slotAxis, slotOff, edgeCorner, kCellEdgeEndpoint, cornerPos, shift]⟩
  · exact ⟨0, by omega, by simp [slotEdge, slotAxis, slotOff, edgeCorner, kCellEdgeEndpoint, cornerPos, shift]⟩
  · exact ⟨2, by omega, by simp [slotEdge, slotAxis, slotOff, edgeCorner, kCellEdgeEndpoint, cornerPos, shift]⟩
  · exact ⟨7, by omega, by simp [slotEdge, slotAxis, slotOff, edgeCorner, kCellEdgeEndpoint, cornerPos, shift]⟩
  · exact ⟨6, by omega, by simp [slotEdge, slotAxis, slotOff, edgeCorner, kCellEdgeEndpoint, cornerPos, shift]⟩
  · exact ⟨4, by omega, by simp [slotEdge, slotAxis, slotOff, edgeCorner, kCellEdgeEndpoint, cornerPos, shift]⟩
  · exact ⟨5, by omega, by simp [slotEdge, slotAxis, slotOff, edgeCorner, kCellEdgeEndpoint, cornerPos, shift]⟩
  · exact ⟨11, by omega, by simp [slotEdge, slotAxis, slotOff, edgeCorner, kCellEdgeEndpoint, cornerPos, shift]⟩
  · exact ⟨10, by omega, by simp [slotEdge, slotAxis, slotOff, edgeCorner, kCellEdgeEndpoint, cornerPos, shift]⟩
  · exact ⟨8, by omega, by simp [slotEdge, slotAxis, slotOff, edgeCorner, kCellEdgeEndpoint, cornerPos, shift]⟩
  · exact ⟨9, by omega, by simp [slotEdge, slotAxis, slotOff, edgeCorner, kCellEdgeEndpoint, cornerPos, shift]⟩

theorem mem_mcCells_iff {K : Type} [Add K] [Sub K] [Mul K] [Div K] [Zero K] [IntCast K] [LinearOrder K] {g : Grid K} (h : Filled g)
    {P : IVec3} : P ∈ mcCells g ↔ CrossingCell g P := by
  rw [mem_mcCells h]
  unfold CrossingCell
  refine and_congr_right fun _ => ?_
  constructor
  · rintro ⟨i, hi, hs⟩
    refine ⟨_, _, (edgeIdx_isSome h).1 hs, ?_⟩
    exact slotEdge_in_cell hi
  · rintro ⟨D, p, hc, he⟩
    obtain ⟨i, hi, hs⟩ := slot_of_edgeOfCell he
    refine ⟨i, hi, ?_⟩
    unfold vid
    rw [hs, edgeIdx_isSome h]
    exact hc

theorem cell_inCube {h : Int} {c : IVec3} (hc : CellIn h c) : InCube h c := hc c (by simp [cellVertices])

theorem mcCells_cellList {K : Type} [Add K] [Sub K] [Mul K] [Div K] [Zero K] [IntCast K] [LinearOrder K] {g : Grid K} (h : Filled g) :
    CellList g (mcCells g) := by
  refine ⟨?_, fun P => mem_mcCells_iff h⟩
  refine List.Pairwise.imp_of_mem ?_ (mcCells_sorted h)
  intro a b ha hb hab
  exact (Grid.vidx_lt_iff h.wf (cell_inCube ((mem_mcCells h).1 ha).1) (cell_inCube ((mem_mcCells h).1 hb).1)).1 hab

theorem lexYXZ_asymm {p q : IVec3} (h1 : LexYXZ p q) (h2 : LexYXZ q p) : False := by
  unfold LexYXZ at *; omega

theorem lexYXZ_irrefl {p : IVec3} (h : LexYXZ p p) : False := lexYXZ_asymm h h

theorem CellList.unique {K : Type} [Add K] [Sub K] [Mul K] [Div K] [Zero K] [IntCast K] [LinearOrder K] {g : Grid K} {a b : List IVec3} (ha : CellList g a)
    (hb : CellList g b) : a = b := by
  have hn : ∀ {l : List IVec3}, l.Pairwise LexYXZ → l.Nodup := fun h => h.imp fun h e => by
    subst e; exact lexYXZ_irrefl h
  apply List.Perm.eq_of_pairwise (le := LexYXZ) _ ha.sorted hb.sorted
  · rw [List.perm_ext_iff_of_nodup (hn ha.sorted) (hn hb.sorted)]
    intro P
    rw [ha.mem, hb.mem]
  · intro p q _ _ h1 h2; exact (lexYXZ_asymm h1 h2).elim

theorem CellList.nodup {K : Type} [Add K] [Sub K] [Mul K] [Div K] [Zero K] [IntCast K] [LinearOrder K] {g : Grid K} {a : List IVec3} (ha : CellList g a) :
    a.Nodup := ha.sorted.imp fun h e => by subst e; exact lexYXZ_irrefl h

/-! ### Collecting -/

/-- Entries of one edge. -/
def dcEntries (g : Grid K) (e : GridEdge K) : List (DcEntry K) :=
  ((cellsAroundEdge e.axis e.lesser).filter (fun c => decide (CellIn g.maxCoord c))).map (fun c => ⟨g.vidx c, e⟩)

theorem dcCollectStep_eq {g : Grid K} (h : Filled g) {D : Axis} {e : GridEdge K} (he : e ∈ g.edges D)
    (l : List (DcEntry K)) : dcCollectStep g D l e = some (l ++ dcEntries g e) := by
  obtain ⟨c0, c1, c2, c3, e4, hf⟩ := adjacentCells_wf h.wf D e.lesser (h.crossing he).1
  unfold dcCollectStep GridEdge.lesserEndpoint
  rw [e4]
  simp only [Option.bind_eq_bind, Option.bind_some]
  congr 2
  unfold dcEntries
  rw [h.edge_axis D e he]
  have key : ∀ (is : List Nat) (cs : List IVec3), List.Forall₂ (fun (i : Nat) (c : IVec3) =>
          (CellIn g.maxCoord c → g.pointToIndex c = some i ∧ i ≠ kBadIndex) ∧ (¬ CellIn g.maxCoord c → i = kBadIndex)) is cs →
      (is.filter (fun c => decide (c ≠ kBadIndex))).map (fun c => (⟨c, e⟩ : DcEntry K)) =
      (cs.filter (fun c => decide (CellIn g.maxCoord c))).map (fun c => ⟨g.vidx c, e⟩) := by
    intro is cs hf
    induction hf with
    | nil => rfl
    | @cons i c is cs hic _ ih =>
      by_cases hc : CellIn g.maxCoord c
      · obtain ⟨h1, h2⟩ := hic.1 hc
        obtain ⟨-, h4⟩ := Grid.pointToIndex_some h.wf h1
        rw [List.filter_cons_of_pos (by simpa using h2), List.filter_cons_of_pos (by simpa using hc),
          List.map_cons, List.map_cons, ih, h4]
      · rw [List.filter_cons_of_neg (by simpa using hic.2 hc), List.filter_cons_of_neg (by simpa using hc), ih]
  exact key _ _ hf

theorem dcCollect_eq {g : Grid K} (h : Filled g) (D : Axis) (l : List (DcEntry K)) :
    dcCollect g D l = some (l ++ (g.edges D).flatMap (dcEntries g)) := by
  unfold dcCollect
  have key : ∀ (es : List (GridEdge K)) (l : List (DcEntry K)), (∀ e ∈ es, e ∈ g.edges D) →
      es.foldlM (dcCollectStep g D) l = some (l ++ es.flatMap (dcEntries g)) := by
    intro es
    induction es with
    | nil => intro l _; simp
    | cons e es ih =>
      intro l he
      rw [List.foldlM_cons, dcCollectStep_eq h (he e List.mem_cons_self)]
      simp only [Option.bind_eq_bind, Option.bind_some]
      rw [ih _ (fun e' h' => he e' (List.mem_cons_of_mem _ h'))]
      simp
  exact key _ _ (fun _ h => h)

/-- Stored edges belonging to cell `P`. -/
def cellEdges (g : Grid K) (P : IVec3) : List (GridEdge K) :=
  (edgeList g).filter (fun e => decide (P ∈ cellsAroundEdge e.axis e.lesser))

theorem dcEntries_filter {g : Grid K} (h : Filled g) {P : IVec3} (hP : CellIn g.maxCoord P) (e : GridEdge K) :
    (dcEntries g e).filter (fun x => decide (x.cellIndex = g.vidx P)) =
      if P ∈ cellsAroundEdge e.axis e.lesser then [⟨g.vidx P, e⟩] else [] := by
  unfold dcEntries
  rw [List.filter_map, List.filter_filter]
  have hnd := around_nodup e.axis e.lesser
  generalize cellsAroundEdge e.axis e.lesser = cs at hnd
  have hfun : cs.filter (fun c => ((fun x : (DcEntry K) => decide (x.cellIndex = g.vidx P)) ∘ fun c => ⟨g.vidx c, e⟩) c &&
      decide (CellIn g.maxCoord c)) = cs.filter (fun c => decide (c = P)) := by
    apply List.filter_congr
    intro c _
    simp only [Function.comp]
    by_cases hc : c = P
    · subst hc; simp [hP]
    · by_cases hcc : CellIn g.maxCoord c
      · have : g.vidx c ≠ g.vidx P := fun e => hc (Grid.vidx_inj h.wf (cell_inCube hcc) (cell_inCube hP) e)
        simp [this, hc]
      · simp [hcc, hc]
  rw [hfun]
  induction cs with
  | nil => simp
  | cons c cs ih =>
    obtain ⟨h1, h2⟩ := List.nodup_cons.1 hnd
    by_cases hc : c = P
    · subst hc
      have : cs.filter (fun c' => decide (c' = c)) = [] := by
        rw [List.filter_eq_nil_iff]; intro x hx; simp; rintro rfl; exact h1 hx
      simp [this]
    · have hc' : ¬ P = c := fun e => hc e.symm
      rw [List.filter_cons_of_neg (by simpa using hc), ih h2]
      · simp [hc']
      · apply List.filter_congr
        intro x _
        simp only [Function.comp]
        by_cases hx : x = P
        · subst hx; simp [hP]
        · by_cases hcc : CellIn g.maxCoord x
          · have : g.vidx x ≠ g.vidx P := fun e => hx (Grid.vidx_inj h.wf (cell_inCube hcc) (cell_inCube hP) e)
            simp [this, hx]
          · simp [hcc, hx]

theorem entries_filter {g : Grid K} (h : Filled g) {P : IVec3} (hP : CellIn g.maxCoord P) :
    ((edgeList g).flatMap (dcEntries g)).filter (fun x => decide (x.cellIndex = g.vidx P)) =
      (cellEdges g P).map (fun e => ⟨g.vidx P, e⟩) := by
  unfold cellEdges
  generalize edgeList g = es
  induction es with
  | nil => simp
  | cons e es ih =>
    rw [List.flatMap_cons, List.filter_append, ih, dcEntries_filter h hP]
    by_cases hm : P ∈ cellsAroundEdge e.axis e.lesser
    · rw [if_pos hm, List.filter_cons_of_pos (by simpa using hm)]; simp
    · rw [if_neg hm, List.filter_cons_of_neg (by simpa using hm)]; simp

/-! ### Grouping -/

theorem sorted_split {l : List (DcEntry K)} {k : Nat} (hs : l.Pairwise (fun a b => a.cellIndex ≤ b.cellIndex))
    (hk : ∀ e ∈ l, k ≤ e.cellIndex) :
    l = l.filter (fun x => decide (x.cellIndex = k)) ++ l.filter (fun x => decide (x.cellIndex ≠ k)) := by
  induction l with
  | nil => rfl
  | cons e l ih =>
    obtain ⟨h1, h2⟩ := List.pairwise_cons.1 hs
    by_cases he : e.cellIndex = k
    · rw [List.filter_cons_of_pos (by simpa using he), List.filter_cons_of_neg (by simpa using he), List.cons_append,
        ← ih h2 (fun x hx => hk x (List.mem_cons_of_mem _ hx))]
    · have hgt : ∀ x ∈ e :: l, x.cellIndex ≠ k := by
        intro x hx
        have hek := hk e List.mem_cons_self
        rcases List.mem_cons.1 hx with rfl | hx
        · exact he
        · have := h1 x hx; omega
      have h3 : (e :: l).filter (fun x => decide (x.cellIndex = k)) = [] := by
        rw [List.filter_eq_nil_iff]; intro x hx; simpa using hgt x hx
      have h4 : (e :: l).filter (fun x => decide (x.cellIndex ≠ k)) = e :: l := by
        rw [List.filter_eq_self]; intro x hx; simpa using hgt x hx
      rw [h3, h4, List.nil_append]

theorem sorted_groups {α : Type} (key : α → Nat) (cs : List α) (hcs : cs.Pairwise (fun a b => key a < key b))
    (l : List (DcEntry K)) (hs : l.Pairwise (fun a b => a.cellIndex ≤ b.cellIndex))
    (hk : ∀ e ∈ l, ∃ c ∈ cs, key c = e.cellIndex) :
    l = cs.flatMap (fun c => l.filter (fun x => decide (x.cellIndex = key c))) := by
  induction cs generalizing l with
  | nil =>
    cases l with
    | nil => rfl
    | cons e l => obtain ⟨c, hc, -⟩ := hk e List.mem_cons_self; cases hc
  | cons c cs ih =>
    obtain ⟨h1, h2⟩ := List.pairwise_cons.1 hcs
    have hle : ∀ e ∈ l, key c ≤ e.cellIndex := by
      intro e he
      obtain ⟨c', hc', heq⟩ := hk e he
      rcases List.mem_cons.1 hc' with rfl | hc'
      · omega
      · have := h1 c' hc'; omega
    rw [List.flatMap_cons]
    conv_lhs => rw [sorted_split hs hle]
    congr 1
    have hrest := ih h2 (l.filter (fun x => decide (x.cellIndex ≠ key c))) (hs.filter _) (by
      intro e he
      obtain ⟨he1, he2⟩ := List.mem_filter.1 he
      obtain ⟨c', hc', heq⟩ := hk e he1
      rcases List.mem_cons.1 hc' with rfl | hc'
      · exact absurd heq.symm (by simpa using he2)
      · exact ⟨c', hc', heq⟩)
    rw [hrest]
    apply List.flatMap_congr
    intro c' hc'
    rw [List.filter_filter]
    apply List.filter_congr
    intro x _
    have := h1 c' hc'
    by_cases hx : x.cellIndex = key c'
    · have : key c' ≠ key c := by omega
      simp [hx, this]
    · simp [hx]

end Isomesh
