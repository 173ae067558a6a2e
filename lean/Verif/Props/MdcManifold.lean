import Verif.Props.McManifold
import Verif.Props.MdcClosed

/-! C72 for `MDC_Octree` with a negative error bound (no merging): the triangles around a vertex form one fan exactly
if its cell does not have exactly two opposite empty corners. -/

namespace Isomesh
open Spec Relation

set_option linter.unusedSectionVars false
variable {K : Type} [Add K] [_root_.Sub K] [Mul K] [Div K] [Neg K] [Zero K] [One K] [OfNat K 2] [OfScientific K] [NatCast K] [IntCast K]
  [Fabs K] [Elem K] [LinearOrder K] [RoundedLaws K]

variable {env : DcEnv K} {g : Grid K} {options : Qef K 3}

/-! ### Geometry -/

/-- The cell across a face. -/
def faceCell (P : IVec3) (A : Axis) (s : Int) : IVec3 :=
  match A with
  | .X => shift P (2 * s - 1) 0 0
  | .Y => shift P 0 (2 * s - 1) 0
  | .Z => shift P 0 0 (2 * s - 1)

theorem faceCell_face {P : IVec3} {A : Axis} {s : Int} (hs : s = 0 ∨ s = 1) {e : LEdge} :
    (EdgeOfCell P e.axis e.at_ ∧ OnFace P A s e) ↔
      (EdgeOfCell (faceCell P A s) e.axis e.at_ ∧ OnFace (faceCell P A s) A (1 - s) e) := by
  rw [← around_iff, ← around_iff]
  obtain ⟨x, y, z⟩ := P
  obtain ⟨D, p, q, r⟩ := e
  unfold OnFace
  rcases hs with rfl | rfl <;> cases A <;> cases D <;> simp [faceCell, cellsAroundEdge, shift, IVec3.get] <;> omega

theorem faceCell_ne {P : IVec3} {A : Axis} {s : Int} : faceCell P A s ≠ P := by
  obtain ⟨x, y, z⟩ := P
  cases A <;> simp [faceCell, shift] <;> omega

/-- Neighbours in the ring of cells around an edge. -/
def ringNext (k k' : Fin 4) : Prop := k' = k + 1 ∨ k = k' + 1

theorem ring_cells {P : IVec3} {A : Axis} {s : Int} (hs : s = 0 ∨ s = 1) {e : LEdge} (he : EdgeOfCell P e.axis e.at_)
    (hf : OnFace P A s e) : ∃ k k', ringNext k k' ∧ (e.seen k).cell = P ∧ (e.seen k').cell = faceCell P A s := by
  obtain ⟨h1, -⟩ := (faceCell_face hs).1 ⟨he, hf⟩
  obtain ⟨k, hk⟩ := of_edgeCorner he
  obtain ⟨k', hk'⟩ := of_edgeCorner h1
  refine ⟨k, k', ?_, hk.symm, hk'.symm⟩
  rw [hk] at hk'
  obtain ⟨D, p, q, r⟩ := e
  clear hk he hf h1
  revert hk'
  rcases hs with rfl | rfl <;> cases A <;> cases D <;> fin_cases k <;> fin_cases k' <;>
    simp [faceCell, Spec.edgeCorner, edgeOff, shift, ringNext] <;> omega

/-- Two different edges of a cell with a common end are on a common face. -/
theorem common_face {P : IVec3} {e e' : LEdge} (he : EdgeOfCell P e.axis e.at_) (he' : EdgeOfCell P e'.axis e'.at_)
    {q : IVec3} (hq : q = e.at_ ∨ q = edgeEnd e.axis e.at_) (hq' : q = e'.at_ ∨ q = edgeEnd e'.axis e'.at_) (hne : e ≠ e') :
    ∃ A s, (s = 0 ∨ s = 1) ∧ OnFace P A s e ∧ OnFace P A s e' := by
  rw [← around_iff] at he he'
  obtain ⟨x, y, z⟩ := P
  obtain ⟨D, a, b, c⟩ := e
  obtain ⟨D', a', b', c'⟩ := e'
  obtain ⟨u, v, w⟩ := q
  have hA : ∃ A : Axis, A ≠ D ∧ A ≠ D' ∧ (D ≠ D' ∨ D = D') := by
    cases D <;> cases D' <;> first | exact ⟨.X, by decide, by decide, by decide⟩ | exact ⟨.Y, by decide, by decide, by decide⟩ | exact ⟨.Z, by decide, by decide, by decide⟩
  obtain ⟨A, hA1, hA2, -⟩ := hA
  refine ⟨A, (⟨a, b, c⟩ : IVec3).get A - (⟨x, y, z⟩ : IVec3).get A, ?_, ⟨fun h => hA1 h.symm, by ring⟩, ⟨fun h => hA2 h.symm, ?_⟩⟩
  · revert he
    cases A <;> cases D <;> simp [cellsAroundEdge, shift, IVec3.get] at hA1 ⊢ <;> omega
  · revert he he' hq hq' hne
    cases A <;> cases D <;> cases D' <;> simp [cellsAroundEdge, shift, IVec3.get, edgeEnd] at hA1 hA2 ⊢ <;> omega

theorem solidEnd_end (g : Grid K) (e : LEdge) : solidEndOf g e = e.at_ ∨ solidEndOf g e = edgeEnd e.axis e.at_ := by
  unfold solidEndOf; split_ifs <;> simp

/-- Two different edges joined on the surface within a cell are joined on a face, also as seen from the cell across. -/
theorem sheet_across {P : IVec3} {e e' : LEdge} (h : SheetStep g P e e') (hne : e ≠ e') :
    ∃ A s, (s = 0 ∨ s = 1) ∧ OnFace P A s e ∧ OnFace P A s e' ∧ SheetStep g (faceCell P A s) e e' := by
  obtain ⟨c1, c2, h⟩ := h
  rcases h with h | ⟨A, s, hs, h1, h2, h3⟩
  · obtain ⟨A, s, hs, h1, h2⟩ := common_face c1.2 c2.2 (solidEnd_end g e) (h ▸ solidEnd_end g e') hne
    exact ⟨A, s, hs, h1, h2, ⟨c1.1, ((faceCell_face hs).1 ⟨c1.2, h1⟩).1⟩, ⟨c2.1, ((faceCell_face hs).1 ⟨c2.2, h2⟩).1⟩, Or.inl h⟩
  · obtain ⟨k1, k2⟩ := (faceCell_face hs).1 ⟨c1.2, h1⟩
    obtain ⟨k3, k4⟩ := (faceCell_face hs).1 ⟨c2.2, h2⟩
    refine ⟨A, s, hs, h1, h2, ⟨c1.1, k1⟩, ⟨c2.1, k3⟩, Or.inr ⟨A, 1 - s, by omega, k2, k4, ?_⟩⟩
    intro f hf hff
    obtain ⟨k5, k6⟩ := (faceCell_face hs).2 ⟨hf.2, hff⟩
    exact h3 f ⟨hf.1, k5⟩ k6

theorem sheetStep_symm {P : IVec3} {e e' : LEdge} (h : SheetStep g P e e') : SheetStep g P e' e := by
  obtain ⟨c1, c2, h⟩ := h
  refine ⟨c2, c1, ?_⟩
  rcases h with h | ⟨A, s, hs, h1, h2, h3⟩
  · exact Or.inl h.symm
  · exact Or.inr ⟨A, s, hs, h2, h1, fun f a b => (h3 f a b).symm⟩

theorem eqvGen_path {α : Type} {r : α → α → Prop} (hs : ∀ a b, r a b → r b a) {a b : α} (h : EqvGen r a b) : ReflTransGen r a b := by
  have sym : ∀ {a b}, ReflTransGen r a b → ReflTransGen r b a := by
    intro a b h
    induction h with
    | refl => exact .refl
    | tail _ h ih => exact .head (hs _ _ h) ih
  induction h with
  | rel _ _ h => exact .single h
  | refl => exact .refl
  | symm _ _ _ ih => exact sym ih
  | trans _ _ _ _ _ h1 h2 => exact h1.trans h2

/-! ### Quads -/

theorem quad_side {v : Fin 4 → Nat} (hv : ∀ i j, i ≠ j → v i ≠ v j) (b : Bool) {k k' : Fin 4} (hk : ringNext k k') :
    ∃ t ∈ octQuad (v 0) (v 1) (v 2) (v 3) b, HasCorner t (v k) ∧ HasCorner t (v k') := by
  have h01 := hv 0 1 (by decide)
  have h02 := hv 0 2 (by decide)
  have h03 := hv 0 3 (by decide)
  have h12 := hv 1 2 (by decide)
  have h13 := hv 1 3 (by decide)
  have h23 := hv 2 3 (by decide)
  have hq : octQuad (v 0) (v 1) (v 2) (v 3) b =
      if b then [(v 0, v 1, v 2), (v 0, v 2, v 3)] else [(v 0, v 2, v 1), (v 0, v 3, v 2)] := by
    unfold octQuad
    rw [List.filter_eq_self]
    cases b <;> simp [h01, h02, h03, h12, h13, h23, Ne.symm h12, Ne.symm h23]
  rw [hq]
  revert hk
  cases b <;> fin_cases k <;> fin_cases k' <;> simp [ringNext, HasCorner]

theorem quad_corner {v0 v1 v2 v3 : Nat} {b : Bool} {t : Nat × Nat × Nat} (ht : t ∈ octQuad v0 v1 v2 v3 b) {w : Nat}
    (hw : HasCorner t w) : w = v0 ∨ w = v1 ∨ w = v2 ∨ w = v3 := by
  unfold octQuad at ht
  have := (List.mem_filter.1 ht).1
  unfold HasCorner at hw
  cases b <;> simp at this <;> rcases this with rfl | rfl <;> simp at hw <;> omega

/-- Two triangles of a quad with a common corner share a side ending there. -/
theorem quad_link {v0 v1 v2 v3 : Nat} {b : Bool} {s t : Nat × Nat × Nat} (hs : s ∈ octQuad v0 v1 v2 v3 b)
    (ht : t ∈ octQuad v0 v1 v2 v3 b) {w : Nat} (cs : HasCorner s w) (ct : HasCorner t w) : ShareSideAt w s t := by
  unfold octQuad at hs ht
  obtain ⟨hs, ds⟩ := List.mem_filter.1 hs
  obtain ⟨ht, dt⟩ := List.mem_filter.1 ht
  simp only [decide_eq_true_eq] at ds dt
  refine ⟨cs, ct, ?_⟩
  unfold HasCorner at *
  have h02 : s.1 = v0 ∧ t.1 = v0 ∧ (v2 = s.2.1 ∨ v2 = s.2.2) ∧ (v2 = t.2.1 ∨ v2 = t.2.2) ∧ v0 ≠ v2 := by
    cases b <;> simp at hs ht <;> rcases hs with rfl | rfl <;> rcases ht with rfl | rfl <;> simp at ds dt ⊢ <;> omega
  obtain ⟨h1, h2, h3, h4, h5⟩ := h02
  by_cases hw : w = v0
  · exact ⟨v2, by omega, by omega, by omega⟩
  · exact ⟨v0, by omega, by omega, by omega⟩

/-! ### The fine mesh -/

/-- Triangles of the mesh belong to inner crossing edges. -/
theorem mesh_triangle {root : Cube} {V : CellCrossing → Nat} {m : Mesh K} (h : MdcMesh g root V m) {t : Nat × Nat × Nat} :
    t ∈ triangles m.indices ↔ ∃ e : LEdge, CrossingEdge g e.axis e.at_ ∧ ¬ OnBorder root e.axis e.at_ ∧
      t ∈ octQuad (V (e.seen 0)) (V (e.seen 1)) (V (e.seen 2)) (V (e.seen 3)) (solidAt g e.at_) := by
  obtain ⟨es, -, hes, htri⟩ := h.quads
  rw [htri, List.mem_flatMap]
  constructor
  · rintro ⟨e, he, ht⟩
    exact ⟨e, ((hes e).1 he).1, ((hes e).1 he).2, ht⟩
  · rintro ⟨e, h1, h2, ht⟩
    exact ⟨e, (hes e).2 ⟨h1, h2⟩, ht⟩

theorem corner_seen {V : CellCrossing → Nat} {e : LEdge} {b : Bool} {t : Nat × Nat × Nat}
    (ht : t ∈ octQuad (V (e.seen 0)) (V (e.seen 1)) (V (e.seen 2)) (V (e.seen 3)) b) {n : Nat} (hn : HasCorner t n) :
    ∃ k, V (e.seen k) = n := by
  rcases quad_corner ht hn with h | h | h | h
  · exact ⟨0, h.symm⟩
  · exact ⟨1, h.symm⟩
  · exact ⟨2, h.symm⟩
  · exact ⟨3, h.symm⟩

theorem seen_cell_inj {e : LEdge} {i j : Fin 4} (h : (e.seen i).cell = (e.seen j).cell) : i = j := by
  have hn := around_nodup e.axis e.at_
  rw [edgeCorner_cells] at hn
  have h' : Spec.edgeCorner e.axis e.at_ 1 i = Spec.edgeCorner e.axis e.at_ 1 j := h
  revert h'
  fin_cases i <;> fin_cases j <;> simp at hn ⊢ <;> intro h' <;> simp_all

theorem seen_eq {e : LEdge} {k : Fin 4} {P : IVec3} (h : (e.seen k).cell = P) : e.seen k = ⟨P, e.axis, e.at_⟩ := by
  subst h; rfl

/-- One fan, if the surface in the cell has one sheet for this vertex. -/
theorem fine_fan {root : Cube} {V : CellCrossing → Nat} {m : Mesh K} (h : MdcMesh g root V m)
    (hfine : ∀ x y : CellCrossing, x.In g root → y.In g root → V x = V y → x.cell = y.cell ∧ SameSheet g x.cell x.edge y.edge)
    {n : Nat} (hborder : ∀ x : CellCrossing, x.In g root → V x = n → ¬ OnBorder root x.axis x.at_)
    (hholes : ∀ x : CellCrossing, x.In g root → V x = n → ¬ TwoHoles g x.cell) : FanAt (triangles m.indices) n := by
  -- the quads have four different corners
  have hdist : ∀ {e : LEdge}, CrossingEdge g e.axis e.at_ → ¬ OnBorder root e.axis e.at_ → ∀ i j : Fin 4, i ≠ j →
      V (e.seen i) ≠ V (e.seen j) := fun hc hb i j hij he =>
    hij (seen_cell_inj (hfine _ _ (edge_piece_in hc hb i) (edge_piece_in hc hb j) he).1)
  -- one step on the surface inside the cell
  have step : ∀ {P : IVec3} {e e' : LEdge}, SheetStep g P e e' → e ≠ e' → root.Has P → V ⟨P, e.axis, e.at_⟩ = n →
      ∃ t ∈ octQuad (V (e.seen 0)) (V (e.seen 1)) (V (e.seen 2)) (V (e.seen 3)) (solidAt g e.at_),
      ∃ t' ∈ octQuad (V (e'.seen 0)) (V (e'.seen 1)) (V (e'.seen 2)) (V (e'.seen 3)) (solidAt g e'.at_), ShareSideAt n t t' := by
    intro P e e' hst hne hP hn
    have hi : CellCrossing.In g root ⟨P, e.axis, e.at_⟩ := ⟨hP, hst.1⟩
    have hi' : CellCrossing.In g root ⟨P, e'.axis, e'.at_⟩ := ⟨hP, hst.2.1⟩
    have hn' : V ⟨P, e'.axis, e'.at_⟩ = n := by
      rw [← hn]
      exact (h.sheet _ _ hi hi' rfl (Or.inr (.rel _ _ hst))).symm
    have hb := hborder _ hi hn
    have hb' := hborder _ hi' hn'
    obtain ⟨A, s, hs, f1, f2, hst'⟩ := sheet_across hst hne
    obtain ⟨k1, k2, hr, e1, e2⟩ := ring_cells hs hst.1.2 f1
    obtain ⟨k1', k2', hr', e1', e2'⟩ := ring_cells hs hst.2.1.2 f2
    obtain ⟨t, ht, c1, c2⟩ := quad_side (hdist hst.1.1 hb) (solidAt g e.at_) hr
    obtain ⟨t', ht', c1', c2'⟩ := quad_side (hdist hst.2.1.1 hb') (solidAt g e'.at_) hr'
    have hQ : root.Has (faceCell P A s) := by rw [← e2]; exact (edge_piece_in hst.1.1 hb k2).1
    have hw : V (e.seen k2) = V (e'.seen k2') := by
      rw [seen_eq e2, seen_eq e2']
      exact h.sheet _ _ ⟨hQ, hst'.1⟩ ⟨hQ, hst'.2.1⟩ rfl (Or.inr (.rel _ _ hst'))
    rw [seen_eq e1, hn] at c1
    rw [seen_eq e1', hn'] at c1'
    refine ⟨t, ht, t', ht', c1, c1', V (e.seen k2), ?_, c2, hw ▸ c2'⟩
    intro heq
    rw [← hn, ← seen_eq e1] at heq
    have := hdist hst.1.1 hb k2 k1 ?_ heq
    · exact this
    · rintro rfl
      exact faceCell_ne (e2.symm.trans e1)
  intro s hs t ht cs ct
  obtain ⟨e, he, hb, hs⟩ := (mesh_triangle h).1 hs
  obtain ⟨e', he', hb', ht⟩ := (mesh_triangle h).1 ht
  obtain ⟨k, hk⟩ := corner_seen hs cs
  obtain ⟨k', hk'⟩ := corner_seen ht ct
  have hin := edge_piece_in he hb k
  have hin' := edge_piece_in he' hb' k'
  obtain ⟨hcell, hsh⟩ := hfine _ _ hin hin' (hk.trans hk'.symm)
  have hpath := eqvGen_path (fun _ _ => sheetStep_symm) (hsh.resolve_left (hholes _ hin hk))
  have ee : (e.seen k).edge = e := rfl
  have ee' : (e'.seen k').edge = e' := rfl
  rw [ee, ee'] at hpath
  rw [seen_eq rfl] at hk
  generalize (e.seen k).cell = P at hin hcell hpath hk
  have hP : root.Has P := by rw [hcell]; exact hin'.1
  clear hcell hsh hin hin' hk' ee ee'
  -- along the path
  induction hpath using Relation.ReflTransGen.head_induction_on generalizing s with
  | refl =>
    exact .single ⟨(mesh_triangle h).2 ⟨_, he, hb, hs⟩, (mesh_triangle h).2 ⟨_, he', hb', ht⟩, quad_link hs ht cs ct⟩
  | @head a c hac _ ih =>
    by_cases hne : a = c
    · subst hne
      exact ih _ ((mesh_triangle h).2 ⟨_, he, hb, hs⟩) cs he hb hs hk
    · obtain ⟨x, hx, y, hy, hxy⟩ := step hac hne hP hk
      have hkc : V ⟨P, c.axis, c.at_⟩ = n := by
        rw [← hk]
        exact (h.sheet ⟨P, a.axis, a.at_⟩ ⟨P, c.axis, c.at_⟩ ⟨hP, hac.1⟩ ⟨hP, hac.2.1⟩ rfl (Or.inr (.rel _ _ hac))).symm
      have hbc := hborder _ ⟨hP, hac.2.1⟩ hkc
      have ms := (mesh_triangle h).2 ⟨_, he, hb, hs⟩
      have mx := (mesh_triangle h).2 ⟨_, he, hb, hx⟩
      have my := (mesh_triangle h).2 ⟨_, hac.2.1.1, hbc, hy⟩
      exact .head ⟨ms, mx, quad_link hs hx cs hxy.1⟩ (.head ⟨mx, my, hxy⟩ (ih _ my hxy.2.1 hac.2.1.1 hbc hy hkc))

/-! ### Cells with two opposite empty corners -/

theorem edge_end_range {P : IVec3} {e : LEdge} (h : EdgeOfCell P e.axis e.at_) {q : IVec3}
    (hq : q = e.at_ ∨ q = edgeEnd e.axis e.at_) (A : Axis) : P.get A ≤ q.get A ∧ q.get A ≤ P.get A + 1 := by
  have hm : q ∈ cellVertices P := by
    apply h
    rcases hq with rfl | rfl <;> cases e.axis <;> simp [edgeVertices, edgeEnd]
  simp only [cellVertices, shift, List.mem_cons, List.not_mem_nil, or_false] at hm
  rcases hm with rfl | rfl | rfl | rfl | rfl | rfl | rfl | rfl <;> cases A <;> simp [IVec3.get]

/-- Edges common to two cells lie in one plane. -/
theorem common_plane {P R : IVec3} (hne : R ≠ P) {e e' : LEdge} (h1 : EdgeOfCell P e.axis e.at_) (h2 : EdgeOfCell R e.axis e.at_)
    (h3 : EdgeOfCell P e'.axis e'.at_) (h4 : EdgeOfCell R e'.axis e'.at_) {q q' : IVec3}
    (hq : q = e.at_ ∨ q = edgeEnd e.axis e.at_) (hq' : q' = e'.at_ ∨ q' = edgeEnd e'.axis e'.at_) : ∃ A, q.get A = q'.get A := by
  have : ∃ A, R.get A ≠ P.get A := by
    by_contra hc
    push Not at hc
    apply hne
    have hx := hc .X
    have hy := hc .Y
    have hz := hc .Z
    cases R; cases P
    simp only [IVec3.get] at hx hy hz
    simp [hx, hy, hz]
  obtain ⟨A, hA⟩ := this
  refine ⟨A, ?_⟩
  have := edge_end_range h1 hq A
  have := edge_end_range h2 hq A
  have := edge_end_range h3 hq' A
  have := edge_end_range h4 hq' A
  omega

/-- The end of a crossing edge outside the solid. -/
def emptyEndOf (g : Grid K) (e : LEdge) : IVec3 := if solidAt g e.at_ then edgeEnd e.axis e.at_ else e.at_

theorem emptyEnd_end (g : Grid K) (e : LEdge) : emptyEndOf g e = e.at_ ∨ emptyEndOf g e = edgeEnd e.axis e.at_ := by
  unfold emptyEndOf; split_ifs <;> simp

theorem emptyEnd_empty {e : LEdge} (h : CrossingEdge g e.axis e.at_) : solidAt g (emptyEndOf g e) = false := by
  unfold emptyEndOf
  have := h.2
  cases h1 : solidAt g e.at_ <;> cases h2 : solidAt g (edgeEnd e.axis e.at_) <;> rw [h1, h2] at this <;> simp_all

theorem corner_of_range {P q : IVec3} (h : ∀ A, P.get A ≤ q.get A ∧ q.get A ≤ P.get A + 1) : ∃ j : Fin 8, q = octCorner P 1 j := by
  apply unit_closed
  rw [cubeClosed_iff]
  intro a
  have := h a
  simp only [Cube.side, pow_zero]
  exact this

theorem opposite_corners {P : IVec3} {i j : Fin 8} (hij : (i : Nat) + j = 7) (A : Axis) :
    (octCorner P 1 i).get A ≠ (octCorner P 1 j).get A := by
  rw [octCorner_get, octCorner_get]
  have : (octOff i).get A ≠ (octOff j).get A := by
    revert i j
    cases A <;> decide
  omega

theorem hole_step : ∀ i : Fin 8, ∃ j : Fin 8, j ≠ i ∧ (i : Nat) + j ≠ 7 ∧
    (octOff i).y = (octOff j).y ∧ (octOff i).z = (octOff j).z ∧
    (((octOff i).x = 0 ∧ (octOff j).x = 1) ∨ ((octOff i).x = 1 ∧ (octOff j).x = 0)) := by decide

/-- From each empty corner of such a cell there is a crossing edge. -/
theorem hole_edge {root : Cube} (hin : CubeIn g.maxCoord root) {P : IVec3} (hP : root.Has P) {i : Fin 8}
    (hi : ∀ j : Fin 8, solidAt g (octCorner P 1 j) = false ↔ j = i ∨ (i : Nat) + j = 7) :
    ∃ e, CrossingOf g P e ∧ emptyEndOf g e = octCorner P 1 i := by
  obtain ⟨j, hji, hij, hy, hz, hx⟩ := hole_step i
  have s1 : solidAt g (octCorner P 1 i) = false := (hi i).2 (Or.inl rfl)
  have s2 : solidAt g (octCorner P 1 j) = true := by
    rw [← Bool.not_eq_false]
    intro h
    rcases (hi j).1 h with h | h
    · exact hji h
    · exact hij h
  have key : ∀ e : LEdge, EdgeOfCell P e.axis e.at_ → solidAt g e.at_ ≠ solidAt g (edgeEnd e.axis e.at_) → CrossingOf g P e :=
    fun e h1 h2 => edge_crossing hin h1 hP (by
      unfold drop sigma
      cases h3 : solidAt g e.at_ <;> cases h4 : solidAt g (edgeEnd e.axis e.at_) <;> rw [h3, h4] at h2 <;> simp at h2 ⊢)
  rcases hx with ⟨hxi, hxj⟩ | ⟨hxi, hxj⟩
  · have he : edgeEnd .X (octCorner P 1 i) = octCorner P 1 j := by
      simp only [edgeEnd, octCorner, shift, IVec3.mk.injEq, hy, hz, hxi, hxj]
      omega
    refine ⟨⟨.X, octCorner P 1 i⟩, key _ ?_ ?_, ?_⟩
    · intro q hq
      have : q = octCorner P 1 i ∨ q = octCorner P 1 j := by
        rw [← he]; simpa [edgeVertices, edgeEnd] using hq
      rcases this with rfl | rfl <;> exact cell_closed
    · dsimp only
      rw [he, s1, s2]; simp
    · unfold emptyEndOf
      dsimp only
      rw [s1]; rfl
  · have he : edgeEnd .X (octCorner P 1 j) = octCorner P 1 i := by
      simp only [edgeEnd, octCorner, shift, IVec3.mk.injEq, hy, hz, hxi, hxj]
      omega
    refine ⟨⟨.X, octCorner P 1 j⟩, key _ ?_ ?_, ?_⟩
    · intro q hq
      have : q = octCorner P 1 j ∨ q = octCorner P 1 i := by
        rw [← he]; simpa [edgeVertices, edgeEnd] using hq
      rcases this with rfl | rfl <;> exact cell_closed
    · dsimp only
      rw [he, s1, s2]; simp
    · unfold emptyEndOf
      dsimp only
      rw [s2, if_pos rfl, he]

/-- Two fans, if the cell has two opposite empty corners. -/
theorem fine_pinch {root : Cube} (hin : CubeIn g.maxCoord root) {V : CellCrossing → Nat} {m : Mesh K} (h : MdcMesh g root V m)
    (hfine : ∀ x y : CellCrossing, x.In g root → y.In g root → V x = V y → x.cell = y.cell ∧ SameSheet g x.cell x.edge y.edge)
    {P : IVec3} (hP : root.Has P) {e0 : LEdge} (he0 : CrossingOf g P e0)
    (hborder : ∀ f, CrossingOf g P f → ¬ OnBorder root f.axis f.at_) (hh : TwoHoles g P) :
    ¬ FanAt (triangles m.indices) (V ⟨P, e0.axis, e0.at_⟩) := by
  have hV : ∀ e, CrossingOf g P e → V ⟨P, e.axis, e.at_⟩ = V ⟨P, e0.axis, e0.at_⟩ := fun e he =>
    h.sheet _ _ ⟨hP, he⟩ ⟨hP, he0⟩ rfl (Or.inl hh)
  have hi0 : CellCrossing.In g root ⟨P, e0.axis, e0.at_⟩ := ⟨hP, he0⟩
  generalize hn : V ⟨P, e0.axis, e0.at_⟩ = n at hV
  obtain ⟨i, hi⟩ := hh
  have hj : ∀ j : Fin 8, solidAt g (octCorner P 1 j) = false ↔ j = (⟨7 - i, by omega⟩ : Fin 8) ∨
      ((⟨7 - i, by omega⟩ : Fin 8) : Nat) + j = 7 := by
    intro j
    rw [hi]
    constructor
    · rintro (rfl | h)
      · right; dsimp only; omega
      · left; ext; dsimp only; omega
    · rintro (rfl | h)
      · right; dsimp only; omega
      · left; ext; dsimp only at h; omega
  obtain ⟨e1, c1, m1⟩ := hole_edge hin hP hi
  obtain ⟨e2, c2, m2⟩ := hole_edge hin hP hj
  have hopp : ((i : Nat) + (⟨7 - i, by omega⟩ : Fin 8) : Nat) = 7 := by dsimp only; omega
  generalize (⟨7 - i, by omega⟩ : Fin 8) = i' at hj m2 hopp
  -- a triangle of the quad of an edge of the cell
  have tri : ∀ e, CrossingOf g P e → ∃ t ∈ octQuad (V (e.seen 0)) (V (e.seen 1)) (V (e.seen 2)) (V (e.seen 3)) (solidAt g e.at_),
      HasCorner t n := by
    intro e he
    obtain ⟨k, hk⟩ := of_edgeCorner he.2
    have hdist : ∀ i j : Fin 4, i ≠ j → V (e.seen i) ≠ V (e.seen j) := fun i j hij heq =>
      hij (seen_cell_inj (hfine _ _ (edge_piece_in he.1 (hborder e he) i) (edge_piece_in he.1 (hborder e he) j) heq).1)
    obtain ⟨t, ht, h1, -⟩ := quad_side hdist (solidAt g e.at_) (k := k) (k' := k + 1) (Or.inl rfl)
    rw [seen_eq hk.symm, hV e he] at h1
    exact ⟨t, ht, h1⟩
  -- triangles sharing a side belong to the same corner
  have side : ∀ {e e' : LEdge} {a b : Nat × Nat × Nat}, CrossingOf g P e → CrossingEdge g e'.axis e'.at_ →
      ¬ OnBorder root e'.axis e'.at_ →
      a ∈ octQuad (V (e.seen 0)) (V (e.seen 1)) (V (e.seen 2)) (V (e.seen 3)) (solidAt g e.at_) →
      b ∈ octQuad (V (e'.seen 0)) (V (e'.seen 1)) (V (e'.seen 2)) (V (e'.seen 3)) (solidAt g e'.at_) →
      ShareSideAt n a b → emptyEndOf g e = octCorner P 1 i →
      CrossingOf g P e' ∧ emptyEndOf g e' = octCorner P 1 i := by
    intro e e' a b he he' hb' ha hb hab hm
    obtain ⟨ca, cb, w, hw, wa, wb⟩ := hab
    have hbo := hborder e he
    obtain ⟨k, hk⟩ := corner_seen hb cb
    have hcell := (hfine _ _ (edge_piece_in he' hb' k) hi0 (hk.trans hn.symm)).1
    have hPe' : CrossingOf g P e' := by
      refine ⟨he', ?_⟩
      have := edgeCorner_of e'.axis e'.at_ k
      have hc : Spec.edgeCorner e'.axis e'.at_ 1 k = P := hcell
      rwa [hc] at this
    refine ⟨hPe', ?_⟩
    obtain ⟨q, hq⟩ := corner_of_range fun A => edge_end_range hPe'.2 (emptyEnd_end g e') A
    have hempty := emptyEnd_empty he'
    rw [hq] at hempty
    rcases (hi q).1 hempty with rfl | hopp'
    · exact hq
    · exfalso
      obtain ⟨l, hl⟩ := corner_seen ha wa
      obtain ⟨l', hl'⟩ := corner_seen hb wb
      have hR := (hfine _ _ (edge_piece_in he.1 hbo l) (edge_piece_in he' hb' l') (hl.trans hl'.symm)).1
      have hne : (e.seen l).cell ≠ P := by
        intro hc
        rw [seen_eq hc, hV e he] at hl
        exact hw hl.symm
      obtain ⟨A, hA⟩ := common_plane hne he.2 (edgeCorner_of e.axis e.at_ l) hPe'.2
        (by rw [hR]; exact edgeCorner_of e'.axis e'.at_ l') (emptyEnd_end g e) (emptyEnd_end g e')
      rw [hm, hq] at hA
      exact opposite_corners hopp' A hA
  intro hfan
  obtain ⟨t1, ht1, k1⟩ := tri e1 c1
  obtain ⟨t2, ht2, k2⟩ := tri e2 c2
  have p := hfan t1 ((mesh_triangle h).2 ⟨e1, c1.1, hborder e1 c1, ht1⟩) t2
    ((mesh_triangle h).2 ⟨e2, c2.1, hborder e2 c2, ht2⟩) k1 k2
  have inv : ∀ t, ReflTransGen (fun a b => a ∈ triangles m.indices ∧ b ∈ triangles m.indices ∧ ShareSideAt n a b) t1 t →
      ∃ e, CrossingOf g P e ∧ emptyEndOf g e = octCorner P 1 i ∧
        t ∈ octQuad (V (e.seen 0)) (V (e.seen 1)) (V (e.seen 2)) (V (e.seen 3)) (solidAt g e.at_) ∧ HasCorner t n := by
    intro t ht
    induction ht with
    | refl => exact ⟨e1, c1, m1, ht1, k1⟩
    | tail _ hbc ih =>
      obtain ⟨e, he, hm, ha, -⟩ := ih
      obtain ⟨-, hc, hs⟩ := hbc
      obtain ⟨e', he', hb', hq⟩ := (mesh_triangle h).1 hc
      obtain ⟨r1, r2⟩ := side he he' hb' ha hq hs hm
      exact ⟨e', r1, r2, hq, hs.2.1⟩
  obtain ⟨e, he, hm, ha, hc⟩ := inv t2 p
  obtain ⟨-, r2⟩ := side he c2.1 (hborder e2 c2) ha ht2 (by
    have := quad_link ht2 ht2 k2 k2
    exact this) hm
  rw [m2] at r2
  exact opposite_corners hopp .X (by rw [r2])

/-! ### C72 -/

/-- C72, manifold dual contouring.  With a negative error bound (divided by the square of the scale, as `contour` does; in rounded
arithmetic the quotient must not underflow to zero) the triangles around the vertex of a cell away from the
border of the octree form one fan, unless the cell has exactly two opposite empty corners; in such a cell two sheets of the
surface are joined in one vertex, and it is pinched. -/
theorem C72_mdc_vertex {root : Cube} (hin : CubeIn g.maxCoord root) {scale : K} {M : K → Mesh K} {V : K → CellCrossing → Nat}
    (h : MdcSeries env g options root scale M V) {ε : K} (hε : ε / (scale * scale) < 0) {P : IVec3} (hP : root.Has P) {e : LEdge}
    (he : CrossingOf g P e) (hborder : ∀ f, CrossingOf g P f → ¬ OnBorder root f.axis f.at_) :
    FanAt (triangles (M ε).indices) (V ε ⟨P, e.axis, e.at_⟩) ↔ ¬ TwoHoles g P := by
  have hfine : ∀ x y : CellCrossing, x.In g root → y.In g root → V ε x = V ε y →
      x.cell = y.cell ∧ SameSheet g x.cell x.edge y.edge := fun x y hx hy => (fine_gen h hε hx hy).1
  constructor
  · exact fun hf hh => fine_pinch hin (h.mesh ε) hfine hP he hborder hh hf
  · intro hh
    have hcell : ∀ x : CellCrossing, x.In g root → V ε x = V ε ⟨P, e.axis, e.at_⟩ → x.cell = P :=
      fun x hx hv => (hfine x ⟨P, e.axis, e.at_⟩ hx ⟨hP, he⟩ hv).1
    apply fine_fan (h.mesh ε) hfine
    · intro x hx hv
      have := hcell x hx hv
      exact hborder x.edge (this ▸ hx.2)
    · intro x hx hv
      rw [hcell x hx hv]; exact hh

/-- C72 for the API: without merging, the mesh of a surface that does not reach the border of the octree has no pinched
vertices exactly if no cell has exactly two opposite empty corners. -/
theorem C72_mdc_contour (hg : Filled g) {o o' o1 o2 : MdcOctree K} {solver q' : Qef K 3} (hin : CubeIn g.maxCoord (rootCube o.level))
    (hsz : 4 * crossingCells g (rootCube o.level) + 3 < 2 ^ 32) (hs : 0 < o.globalScale * o.globalScale) (hb : o.build env g solver = some (q', o'))
    (hborder : ∀ x : CellCrossing, x.In g (rootCube o.level) → ¬ OnBorder (rootCube o.level) x.axis x.at_)
    {bounds : List K} (h1 : contourAll o' bounds = some o1) {ε : K} (hε : ε / (o.globalScale * o.globalScale) < 0) {r : PlacedMesh K} (h2 : o1.contour ε = some (r, o2)) :
    OneFan (triangles r.mesh.indices) ↔ ∀ P, (rootCube o.level).Has P → ¬ TwoHoles g P := by
  obtain ⟨M, V, hS, hall⟩ := C28_contour hg hin hsz hs hb
  obtain ⟨o1', e1, e2⟩ := hall bounds
  rw [h1] at e1
  cases e1
  obtain ⟨o2', e3⟩ := e2 ε
  rw [h2] at e3
  cases e3
  have hbd : ∀ {P}, (rootCube o.level).Has P → ∀ f, CrossingOf g P f → ¬ OnBorder (rootCube o.level) f.axis f.at_ :=
    fun hP f hf => hborder ⟨_, f.axis, f.at_⟩ ⟨hP, hf⟩
  constructor
  · intro hf P hP hh
    obtain ⟨i, hi⟩ := id hh
    obtain ⟨e, he, -⟩ := hole_edge hin hP hi
    exact (C72_mdc_vertex hin hS hε hP he (hbd hP)).1 (hf _) hh
  · intro hh n s hs' t ht cs ct
    obtain ⟨e, he, hbe, hq⟩ := (mesh_triangle (hS.mesh ε)).1 hs'
    obtain ⟨k, hk⟩ := corner_seen hq cs
    have hi := edge_piece_in he hbe k
    have := (C72_mdc_vertex hin hS hε hi.1 hi.2 (hbd hi.1)).2 (hh _ hi.1)
    have hx : (⟨(e.seen k).cell, (e.seen k).edge.axis, (e.seen k).edge.at_⟩ : CellCrossing) = e.seen k := rfl
    rw [hx, hk] at this
    exact this s hs' t ht cs ct

end Isomesh
