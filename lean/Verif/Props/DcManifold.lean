import Verif.Props.MdcManifold

/-! C72 for uniform dual contouring: the triangles around the vertex of a cell form one fan exactly if the corners of one
kind (solid or empty) are not just two opposite corners of the cell. -/

set_option linter.unusedSectionVars false

namespace Isomesh
open Spec Relation

set_option linter.unusedSectionVars false
variable {K : Type} [Add K] [_root_.Sub K] [Mul K] [Div K] [Neg K] [Zero K] [One K] [OfNat K 2] [OfScientific K] [NatCast K] [IntCast K]
  [Fabs K] [Elem K] [LinearOrder K] [RoundedLaws K]

/-! ### Table -/

/-- The patterns with two opposite corners of one kind. -/
def oppositePatterns : List Nat := [129, 66, 36, 24, 126, 189, 219, 231]

theorem opposite_iff : ∀ m < 256, (m ∈ oppositePatterns ↔ ∃ kind : Bool, ∃ i : Fin 8, ∀ j : Fin 8,
    Spec.solid m j = kind ↔ j = i ∨ (i : Nat) + j = 7) := by decide +kernel

def growSlots (C : List Nat) (acc : List Nat) : List Nat :=
  acc ++ C.filter fun j => !acc.contains j && acc.any fun i => coface i j

/-- Table check: except in those patterns all crossing edges of a cell are connected through faces. -/
def checkLinks : Bool :=
  (List.range 256).all fun m => oppositePatterns.contains m ||
    match (List.range 12).filter (fun i => Spec.crosses m i) with
    | [] => true
    | i0 :: C => C.all fun i => (growSlots (i0 :: C) (growSlots (i0 :: C) (growSlots (i0 :: C) (growSlots (i0 :: C) (growSlots (i0 :: C) [i0]))))).contains i

theorem checkLinks_true : checkLinks = true := by decide +kernel

theorem growSlots_reach {C : List Nat} {i0 : Nat} {acc : List Nat} (hC : ∀ i ∈ acc, i ∈ C)
    (h : ∀ i ∈ acc, ReflTransGen (fun a b => a ∈ C ∧ b ∈ C ∧ coface a b = true) i0 i) :
    (∀ i ∈ growSlots C acc, i ∈ C) ∧
    ∀ i ∈ growSlots C acc, ReflTransGen (fun a b => a ∈ C ∧ b ∈ C ∧ coface a b = true) i0 i := by
  unfold growSlots
  refine ⟨fun t ht => ?_, fun t ht => ?_⟩ <;> rcases List.mem_append.1 ht with ht | ht
  · exact hC t ht
  · exact (List.mem_filter.1 ht).1
  · exact h t ht
  · obtain ⟨h1, h2⟩ := List.mem_filter.1 ht
    obtain ⟨s, hs, hst⟩ := List.any_eq_true.1 (Bool.and_eq_true_iff.1 h2).2
    exact (h s hs).tail ⟨hC s hs, h1, hst⟩

theorem coface_symm (i j : Nat) : coface i j = coface j i := by
  unfold coface; congr 1; funext f; rw [Bool.and_comm]

theorem links_table {m i j : Nat} (hm : m < 256) (hno : m ∉ oppositePatterns) (hi : i < 12) (hj : j < 12)
    (ci : Spec.crosses m i = true) (cj : Spec.crosses m j = true) :
    ReflTransGen (fun a b => (a < 12 ∧ Spec.crosses m a = true) ∧ (b < 12 ∧ Spec.crosses m b = true) ∧ coface a b = true) i j := by
  have h := checkLinks_true
  unfold checkLinks at h
  have h := List.all_eq_true.1 h m (List.mem_range.2 hm)
  rw [Bool.or_eq_true, List.contains_iff_mem] at h
  have h := h.resolve_left hno
  have mi : i ∈ (List.range 12).filter (fun i => Spec.crosses m i) := List.mem_filter.2 ⟨List.mem_range.2 hi, ci⟩
  have mj : j ∈ (List.range 12).filter (fun i => Spec.crosses m i) := List.mem_filter.2 ⟨List.mem_range.2 hj, cj⟩
  have hsub : ∀ x ∈ (List.range 12).filter (fun i => Spec.crosses m i), x < 12 ∧ Spec.crosses m x = true :=
    fun x hx => ⟨List.mem_range.1 (List.mem_filter.1 hx).1, (List.mem_filter.1 hx).2⟩
  generalize (List.range 12).filter (fun i => Spec.crosses m i) = F at h mi mj hsub
  cases F with
  | nil => exact absurd mi (by simp)
  | cons i0 C =>
    dsimp only at h
    have r0 : (∀ t ∈ [i0], t ∈ i0 :: C) ∧ ∀ t ∈ [i0],
        ReflTransGen (fun a b => a ∈ i0 :: C ∧ b ∈ i0 :: C ∧ coface a b = true) i0 t := by
      refine ⟨fun t ht => ?_, fun t ht => ?_⟩ <;> rw [List.mem_singleton.1 ht]
      exact List.mem_cons_self
    have r1 := growSlots_reach r0.1 r0.2
    have r2 := growSlots_reach r1.1 r1.2
    have r3 := growSlots_reach r2.1 r2.2
    have r4 := growSlots_reach r3.1 r3.2
    have r5 := growSlots_reach r4.1 r4.2
    have key : ∀ x ∈ i0 :: C, ReflTransGen (fun a b => (a < 12 ∧ Spec.crosses m a = true) ∧
        (b < 12 ∧ Spec.crosses m b = true) ∧ coface a b = true) i0 x := by
      intro x hx
      rcases List.mem_cons.1 hx with rfl | hx
      · exact .refl
      · have := List.all_eq_true.1 h x hx
        rw [List.contains_iff_mem] at this
        exact ReflTransGen.mono (fun a b hab => ⟨hsub a hab.1, hsub b hab.2.1, hab.2.2⟩) _ _ (r5.2 x this)
    have sym : ∀ {a b}, ReflTransGen (fun a b => (a < 12 ∧ Spec.crosses m a = true) ∧
        (b < 12 ∧ Spec.crosses m b = true) ∧ coface a b = true) a b → ReflTransGen (fun a b => (a < 12 ∧ Spec.crosses m a = true) ∧
        (b < 12 ∧ Spec.crosses m b = true) ∧ coface a b = true) b a := by
      intro a b h
      induction h with
      | refl => exact .refl
      | tail _ h ih => exact .head ⟨h.2.1, h.1, by rw [coface_symm]; exact h.2.2⟩ ih
    exact (sym (key i mi)).trans (key j mj)

variable {g : Grid K}

/-! ### Crossing edges of a cell -/

/-- Two crossing edges of a cell on one of its faces. -/
def FaceStep (g : Grid K) (P : IVec3) (e e' : LEdge) : Prop :=
  CrossingOf g P e ∧ CrossingOf g P e' ∧ ∃ A s, (s = 0 ∨ s = 1) ∧ OnFace P A s e ∧ OnFace P A s e'

theorem opposite_mask {P : IVec3} : cellMask g P ∈ oppositePatterns ↔ ∃ kind, OppositeCorners g P kind := by
  rw [opposite_iff _ (cellMask_lt g P)]
  unfold OppositeCorners
  have : ∀ j : Fin 8, Spec.solid (cellMask g P) j = solidAt g (octCorner P 1 j) := by
    intro j
    rw [solid_cellMask g P j.2]
    congr 1
    fin_cases j <;> simp [octCorner, octOff, shift, cornerPos]
  simp only [this]

theorem onFace_slot {P : IVec3} {f i : Nat} (h : inFace f i = true) : OnFace P (faceAxis f) (faceSide f) (slotEdge P i) := by
  unfold inFace at h
  simp only [Bool.and_eq_true, decide_eq_true_eq] at h
  refine ⟨h.1, ?_⟩
  rw [← h.2]
  unfold slotEdge
  cases faceAxis f <;> rfl

theorem crossingOf_slot (hg : Filled g) {P : IVec3} (hP : CellIn g.maxCoord P) {i : Nat} (hi : i < 12) :
    CrossingOf g P (slotEdge P i) ↔ Spec.crosses (cellMask g P) i = true := by
  rw [← vid_isSome hg hP hi]
  unfold vid
  rw [edgeIdx_isSome hg]
  exact ⟨fun h => h.1, fun h => ⟨h, slotEdge_in_cell hi⟩⟩

theorem faces_connect (hg : Filled g) {P : IVec3} (hP : CellIn g.maxCoord P) (hno : ∀ kind, ¬ OppositeCorners g P kind)
    {e e' : LEdge} (he : CrossingOf g P e) (he' : CrossingOf g P e') : ReflTransGen (FaceStep g P) e e' := by
  obtain ⟨i, hi, e1⟩ := slot_of_edgeOfCell he.2
  obtain ⟨j, hj, e2⟩ := slot_of_edgeOfCell he'.2
  have e1' : slotEdge P i = e := e1
  have e2' : slotEdge P j = e' := e2
  subst e1' e2'
  have hm : cellMask g P ∉ oppositePatterns := fun h => by
    obtain ⟨k, hk⟩ := opposite_mask.1 h
    exact hno k hk
  refine ReflTransGen.lift (slotEdge P) ?_ _ _ (links_table (cellMask_lt g P) hm hi hj ((crossingOf_slot hg hP hi).1 he)
    ((crossingOf_slot hg hP hj).1 he'))
  rintro a b ⟨⟨ha, ca⟩, ⟨hb, cb⟩, hab⟩
  refine ⟨(crossingOf_slot hg hP ha).2 ca, (crossingOf_slot hg hP hb).2 cb, ?_⟩
  unfold coface at hab
  obtain ⟨f, hf, hff⟩ := List.any_eq_true.1 hab
  obtain ⟨h1, h2⟩ := Bool.and_eq_true_iff.1 hff
  exact ⟨faceAxis f, faceSide f, by unfold faceSide; omega, onFace_slot h1, onFace_slot h2⟩

/-! ### Quads -/

theorem dcQuad_side {v : Fin 4 → Nat} (b : Bool) {k k' : Fin 4} (hk : ringNext k k') :
    ∃ t ∈ quadTriangles (v 0) (v 1) (v 2) (v 3) b, HasCorner t (v k) ∧ HasCorner t (v k') := by
  revert hk
  unfold quadTriangles
  cases b <;> fin_cases k <;> fin_cases k' <;> simp [ringNext, HasCorner]

theorem dcQuad_corner {v0 v1 v2 v3 : Nat} {b : Bool} {t : Nat × Nat × Nat} (ht : t ∈ quadTriangles v0 v1 v2 v3 b) {w : Nat}
    (hw : HasCorner t w) : w = v0 ∨ w = v1 ∨ w = v2 ∨ w = v3 := by
  unfold quadTriangles at ht
  unfold HasCorner at hw
  cases b <;> simp at ht <;> rcases ht with rfl | rfl <;> simp at hw <;> omega

theorem dcQuad_link {v0 v1 v2 v3 : Nat} (hv : v1 ≠ v3) {b : Bool} {s t : Nat × Nat × Nat} (hs : s ∈ quadTriangles v0 v1 v2 v3 b)
    (ht : t ∈ quadTriangles v0 v1 v2 v3 b) {w : Nat} (cs : HasCorner s w) (ct : HasCorner t w) : ShareSideAt w s t := by
  refine ⟨cs, ct, ?_⟩
  unfold quadTriangles at hs ht
  unfold HasCorner at *
  have h13 : (v1 = s.1 ∨ v1 = s.2.1 ∨ v1 = s.2.2) ∧ (v3 = s.1 ∨ v3 = s.2.1 ∨ v3 = s.2.2) ∧
      (v1 = t.1 ∨ v1 = t.2.1 ∨ v1 = t.2.2) ∧ (v3 = t.1 ∨ v3 = t.2.1 ∨ v3 = t.2.2) := by
    cases b <;> simp at hs ht <;> rcases hs with rfl | rfl <;> rcases ht with rfl | rfl <;> simp
  obtain ⟨h1, h2, h3, h4⟩ := h13
  by_cases hw : w = v1
  · exact ⟨v3, by omega, h2, h4⟩
  · exact ⟨v1, by omega, h1, h3⟩

/-! ### The mesh -/

/-- Vertex of the `k`-th cell around an edge. -/
def dcV (cells : List IVec3) (e : LEdge) (k : Fin 4) : Nat := cells.idxOf (e.seen k).cell

/-- The triangles of an inner crossing edge. -/
def dcQuad (cells : List IVec3) (e : LEdge) (b : Bool) : List (Nat × Nat × Nat) :=
  quadTriangles (dcV cells e 0) (dcV cells e 1) (dcV cells e 2) (dcV cells e 3) b

theorem dc_triangle (hg : Filled g) {cells : List IVec3} {t : Nat × Nat × Nat} :
    t ∈ (edgeList g).flatMap (edgeQuad g.maxCoord cells) ↔ ∃ e : LEdge, CrossingEdge g e.axis e.at_ ∧
      InteriorEdge g.maxCoord e.axis e.at_ ∧ t ∈ dcQuad cells e (solidAt g e.at_) := by
  have hq : ∀ ge ∈ edgeList g, (t ∈ edgeQuad g.maxCoord cells ge ↔ InteriorEdge g.maxCoord ge.axis ge.lesser ∧
      t ∈ dcQuad cells ⟨ge.axis, ge.lesser⟩ (solidAt g ge.lesser)) := by
    intro ge hge
    have hs := hg.edge_solid _ _ ((mem_edgeList hg).1 hge)
    unfold edgeQuad
    rw [edgeCorner_cells, hs]
    by_cases hi : InteriorEdge g.maxCoord ge.axis ge.lesser
    · rw [if_pos]
      · exact ⟨fun h => ⟨hi, h⟩, fun h => h.2⟩
      · unfold InteriorEdge at hi
        rw [edgeCorner_cells] at hi
        rw [List.all_eq_true]
        intro c hc
        have := hi c hc
        simpa [CellIn] using this
    · rw [if_neg]
      · exact ⟨fun h => absurd h List.not_mem_nil, fun h => absurd h.1 hi⟩
      · intro hall
        apply hi
        unfold InteriorEdge
        rw [edgeCorner_cells]
        intro c hc
        simpa [CellIn] using List.all_eq_true.1 hall c hc
  rw [List.mem_flatMap]
  constructor
  · rintro ⟨ge, hge, ht⟩
    obtain ⟨hi, ht⟩ := (hq ge hge).1 ht
    exact ⟨⟨ge.axis, ge.lesser⟩, hg.crossing ((mem_edgeList hg).1 hge), hi, ht⟩
  · rintro ⟨e, hc, hi, ht⟩
    obtain ⟨ge, hge, hl⟩ := (hg.edge_iff _ _).2 hc
    have hax := hg.edge_axis _ _ hge
    have hm : ge ∈ edgeList g := (mem_edgeList hg).2 (by rw [hax]; exact hge)
    refine ⟨ge, hm, (hq ge hm).2 ?_⟩
    rw [hax, hl]
    exact ⟨hi, ht⟩

theorem dc_corner {cells : List IVec3} {e : LEdge} {b : Bool} {t : Nat × Nat × Nat} (ht : t ∈ dcQuad cells e b) {n : Nat}
    (hn : HasCorner t n) : ∃ k, dcV cells e k = n := by
  rcases dcQuad_corner ht hn with h | h | h | h
  · exact ⟨0, h.symm⟩
  · exact ⟨1, h.symm⟩
  · exact ⟨2, h.symm⟩
  · exact ⟨3, h.symm⟩

/-- The corners of the cell around one end of a crossing edge. -/
def kindEnd (g : Grid K) (kind : Bool) (e : LEdge) : IVec3 := if solidAt g e.at_ = kind then e.at_ else edgeEnd e.axis e.at_

theorem kindEnd_end (g : Grid K) (kind : Bool) (e : LEdge) : kindEnd g kind e = e.at_ ∨ kindEnd g kind e = edgeEnd e.axis e.at_ := by
  unfold kindEnd; split_ifs <;> simp

theorem kindEnd_kind {kind : Bool} {e : LEdge} (h : CrossingEdge g e.axis e.at_) : solidAt g (kindEnd g kind e) = kind := by
  unfold kindEnd
  have := h.2
  cases kind <;> cases h1 : solidAt g e.at_ <;> cases h2 : solidAt g (edgeEnd e.axis e.at_) <;> rw [h1, h2] at this <;> simp_all

/-- From each of the two opposite corners there is a crossing edge. -/
theorem kind_edge {P : IVec3} (hP : CellIn g.maxCoord P) {kind : Bool} {i : Fin 8}
    (hi : ∀ j : Fin 8, solidAt g (octCorner P 1 j) = kind ↔ j = i ∨ (i : Nat) + j = 7) :
    ∃ e, CrossingOf g P e ∧ kindEnd g kind e = octCorner P 1 i := by
  obtain ⟨j, hji, hij, hy, hz, hx⟩ := hole_step i
  have s1 : solidAt g (octCorner P 1 i) = kind := (hi i).2 (Or.inl rfl)
  have s2 : ¬ solidAt g (octCorner P 1 j) = kind := by
    intro h
    rcases (hi j).1 h with h | h
    · exact hji h
    · exact hij h
  have key : ∀ e : LEdge, EdgeOfCell P e.axis e.at_ → solidAt g e.at_ ≠ solidAt g (edgeEnd e.axis e.at_) → CrossingOf g P e :=
    fun e h1 h2 => ⟨⟨fun v hv => hP v (h1 v hv), h2⟩, h1⟩
  rcases hx with ⟨hxi, hxj⟩ | ⟨hxi, hxj⟩
  · have he : edgeEnd .X (octCorner P 1 i) = octCorner P 1 j := by
      simp only [edgeEnd, octCorner, shift, IVec3.mk.injEq, hy, hz, hxi, hxj]
      omega
    refine ⟨⟨.X, octCorner P 1 i⟩, key _ ?_ ?_, ?_⟩
    · intro q hq
      have : q = octCorner P 1 i ∨ q = octCorner P 1 j := by
        rw [← he]; simpa [edgeVertices, edgeEnd] using hq
      rcases this with rfl | rfl <;> exact cell_closed
    · dsimp only
      rw [he, s1]; exact fun h => s2 h.symm
    · unfold kindEnd
      dsimp only
      rw [if_pos s1]
  · have he : edgeEnd .X (octCorner P 1 j) = octCorner P 1 i := by
      simp only [edgeEnd, octCorner, shift, IVec3.mk.injEq, hy, hz, hxi, hxj]
      omega
    refine ⟨⟨.X, octCorner P 1 j⟩, key _ ?_ ?_, ?_⟩
    · intro q hq
      have : q = octCorner P 1 j ∨ q = octCorner P 1 i := by
        rw [← he]; simpa [edgeVertices, edgeEnd] using hq
      rcases this with rfl | rfl <;> exact cell_closed
    · dsimp only
      rw [he, s1]; exact s2
    · unfold kindEnd
      dsimp only
      rw [if_neg s2, he]

/-- C72, uniform dual contouring.  The triangles around the vertex of a cell whose crossing edges are all inside the grid
form one fan, unless the solid corners or the empty corners of the cell are just two opposite ones; then the vertex is
pinched. -/
theorem C72_uniform_vertex {env : DcEnv K} (h : Filled g) (hsort : IsSort env.srt) {solver : Qef K 3}
    (hpinv : 0 < solver.pinvTolerance) {q : Qef K 3} {r : PlacedMesh K} (hr : dualContouring env g solver = some (q, r))
    {cells : List IVec3} (hcells : CellList g cells) {n : Nat} {P : IVec3} (hn : cells[n]? = some P)
    (hborder : ∀ f, CrossingOf g P f → InteriorEdge g.maxCoord f.axis f.at_) :
    FanAt (triangles r.mesh.indices) n ↔ ∀ kind, ¬ OppositeCorners g P kind := by
  obtain ⟨-, htri, hin, -⟩ := C19_quads h hsort hpinv hr hcells
  rw [htri]
  obtain ⟨hk', rfl⟩ := List.getElem?_eq_some_iff.1 hn
  have hPm : cells[n] ∈ cells := List.getElem_mem hk'
  have hidx : cells.idxOf cells[n] = n := (CellList.nodup hcells).idxOf_getElem n hk'
  have hPc := ((hcells.mem _).1 hPm).1
  have hcx := ((hcells.mem _).1 hPm).2
  generalize hP : cells[n] = P at *
  -- vertices of cells
  have hmem : ∀ {e : LEdge}, CrossingEdge g e.axis e.at_ → InteriorEdge g.maxCoord e.axis e.at_ → ∀ k, (e.seen k).cell ∈ cells := by
    intro e hc hi k
    apply (hcells.mem _).2
    refine ⟨hi _ ?_, e.axis, e.at_, hc, edgeCorner_of _ _ k⟩
    exact around_iff.2 (edgeCorner_of _ _ k)
  have hinj : ∀ {A B : IVec3}, A ∈ cells → cells.idxOf A = cells.idxOf B → A = B := by
    intro A B hA he
    by_contra hne
    exact nodup_idxOf_ne hA hne he
  have hdist : ∀ {e : LEdge}, CrossingEdge g e.axis e.at_ → InteriorEdge g.maxCoord e.axis e.at_ → ∀ i j : Fin 4, i ≠ j →
      dcV cells e i ≠ dcV cells e j := fun hc hi i j hij he => hij (seen_cell_inj (hinj (hmem hc hi i) he))
  have hat : ∀ {e : LEdge} {k}, CrossingEdge g e.axis e.at_ → InteriorEdge g.maxCoord e.axis e.at_ → dcV cells e k = n →
      (e.seen k).cell = P := fun hc hi hk => hinj (hmem hc hi _) (hk.trans hidx.symm)
  have hV : ∀ {e : LEdge} {k}, (e.seen k).cell = P → dcV cells e k = n := fun hk => by unfold dcV; rw [hk, hidx]
  constructor
  · -- pinched
    intro hfan kind hopp
    obtain ⟨i, hi⟩ := hopp
    have hj : ∀ j : Fin 8, solidAt g (octCorner P 1 j) = kind ↔ j = (⟨7 - i, by omega⟩ : Fin 8) ∨
        ((⟨7 - i, by omega⟩ : Fin 8) : Nat) + j = 7 := by
      intro j
      rw [hi]
      constructor
      · rintro (rfl | h)
        · right; dsimp only; omega
        · left; ext; dsimp only; omega
      · rintro (rfl | h)
        · right; dsimp only; omega
        · left; ext; dsimp only at h; omega
    obtain ⟨e1, c1, m1⟩ := kind_edge hPc hi
    obtain ⟨e2, c2, m2⟩ := kind_edge hPc hj
    have hopp : ((i : Nat) + (⟨7 - i, by omega⟩ : Fin 8) : Nat) = 7 := by dsimp only; omega
    generalize (⟨7 - i, by omega⟩ : Fin 8) = i' at hj m2 hopp
    have tri : ∀ e, CrossingOf g P e → ∃ t ∈ dcQuad cells e (solidAt g e.at_), HasCorner t n := by
      intro e he
      obtain ⟨k, hk⟩ := of_edgeCorner he.2
      obtain ⟨t, ht, h1, -⟩ := dcQuad_side (v := dcV cells e) (solidAt g e.at_) (k := k) (k' := k + 1) (Or.inl rfl)
      rw [hV hk.symm] at h1
      exact ⟨t, ht, h1⟩
    have side : ∀ {e e' : LEdge} {a b : Nat × Nat × Nat}, CrossingOf g P e → CrossingEdge g e'.axis e'.at_ →
        InteriorEdge g.maxCoord e'.axis e'.at_ → a ∈ dcQuad cells e (solidAt g e.at_) →
        b ∈ dcQuad cells e' (solidAt g e'.at_) → ShareSideAt n a b → kindEnd g kind e = octCorner P 1 i →
        CrossingOf g P e' ∧ kindEnd g kind e' = octCorner P 1 i := by
      intro e e' a b he he' hb' ha hb hab hm
      obtain ⟨ca, cb, w, hw, wa, wb⟩ := hab
      have hbo := hborder e he
      obtain ⟨k, hk⟩ := dc_corner hb cb
      have hcell := hat he' hb' hk
      have hPe' : CrossingOf g P e' := by
        refine ⟨he', ?_⟩
        have := edgeCorner_of e'.axis e'.at_ k
        have hc : Spec.edgeCorner e'.axis e'.at_ 1 k = P := hcell
        rwa [hc] at this
      refine ⟨hPe', ?_⟩
      obtain ⟨q, hq⟩ := corner_of_range fun A => edge_end_range hPe'.2 (kindEnd_end g kind e') A
      have hempty := kindEnd_kind (kind := kind) he'
      rw [hq] at hempty
      rcases (hi q).1 hempty with rfl | hopp'
      · exact hq
      · exfalso
        obtain ⟨l, hl⟩ := dc_corner ha wa
        obtain ⟨l', hl'⟩ := dc_corner hb wb
        have hR : (e.seen l).cell = (e'.seen l').cell := hinj (hmem he.1 hbo l) (hl.trans hl'.symm)
        have hne : (e.seen l).cell ≠ P := by
          intro hc
          rw [hV hc] at hl
          exact hw hl.symm
        obtain ⟨A, hA⟩ := common_plane hne he.2 (edgeCorner_of e.axis e.at_ l) hPe'.2
          (by rw [hR]; exact edgeCorner_of e'.axis e'.at_ l') (kindEnd_end g kind e) (kindEnd_end g kind e')
        rw [hm, hq] at hA
        exact opposite_corners hopp' A hA
    obtain ⟨t1, ht1, k1⟩ := tri e1 c1
    obtain ⟨t2, ht2, k2⟩ := tri e2 c2
    have p := hfan t1 ((dc_triangle h).2 ⟨e1, c1.1, hborder e1 c1, ht1⟩) t2
      ((dc_triangle h).2 ⟨e2, c2.1, hborder e2 c2, ht2⟩) k1 k2
    have inv : ∀ t, ReflTransGen (fun a b => a ∈ (edgeList g).flatMap (edgeQuad g.maxCoord cells) ∧
        b ∈ (edgeList g).flatMap (edgeQuad g.maxCoord cells) ∧ ShareSideAt n a b) t1 t →
        ∃ e, CrossingOf g P e ∧ kindEnd g kind e = octCorner P 1 i ∧ t ∈ dcQuad cells e (solidAt g e.at_) ∧ HasCorner t n := by
      intro t ht
      induction ht with
      | refl => exact ⟨e1, c1, m1, ht1, k1⟩
      | tail _ hbc ih =>
        obtain ⟨e, he, hm, ha, -⟩ := ih
        obtain ⟨-, hc, hs⟩ := hbc
        obtain ⟨e', he', hb', hq⟩ := (dc_triangle h).1 hc
        obtain ⟨r1, r2⟩ := side he he' hb' ha hq hs hm
        exact ⟨e', r1, r2, hq, hs.2.1⟩
    obtain ⟨e, he, hm, ha, hc⟩ := inv t2 p
    obtain ⟨-, r2⟩ := side he c2.1 (hborder e2 c2) ha ht2
      (dcQuad_link (hdist c2.1 (hborder e2 c2) 1 3 (by decide)) ht2 ht2 k2 k2) hm
    rw [m2] at r2
    exact opposite_corners hopp .X (by rw [r2])
  · -- one fan
    intro hno s hs t ht cs ct
    obtain ⟨e, he, hb, hs⟩ := (dc_triangle h).1 hs
    obtain ⟨e', he', hb', ht⟩ := (dc_triangle h).1 ht
    obtain ⟨k, hk⟩ := dc_corner hs cs
    obtain ⟨k', hk'⟩ := dc_corner ht ct
    have hof : ∀ {e : LEdge} {k}, CrossingEdge g e.axis e.at_ → InteriorEdge g.maxCoord e.axis e.at_ → dcV cells e k = n →
        CrossingOf g P e := by
      intro e k hc hi hk
      refine ⟨hc, ?_⟩
      have := edgeCorner_of e.axis e.at_ k
      have hcc : Spec.edgeCorner e.axis e.at_ 1 k = P := hat hc hi hk
      rwa [hcc] at this
    have hpath := faces_connect h hPc hno (hof he hb hk) (hof he' hb' hk')
    clear hk hk' k k'
    induction hpath using Relation.ReflTransGen.head_induction_on generalizing s with
    | refl =>
      exact .single ⟨(dc_triangle h).2 ⟨_, he, hb, hs⟩, (dc_triangle h).2 ⟨_, he', hb', ht⟩,
        dcQuad_link (hdist he hb 1 3 (by decide)) hs ht cs ct⟩
    | @head a c hac _ ih =>
      obtain ⟨ha, hc, A, σ, hσ, f1, f2⟩ := hac
      obtain ⟨k1, k2, hr1, e1, e2⟩ := ring_cells hσ ha.2 f1
      obtain ⟨k1', k2', hr2, e1', e2'⟩ := ring_cells hσ hc.2 f2
      obtain ⟨x, hx, x1, x2⟩ := dcQuad_side (v := dcV cells a) (solidAt g a.at_) hr1
      obtain ⟨y, hy, y1, y2⟩ := dcQuad_side (v := dcV cells c) (solidAt g c.at_) hr2
      have hbc := hborder c hc
      rw [hV e1] at x1
      rw [hV e1'] at y1
      have hxy : ShareSideAt n x y := by
        refine ⟨x1, y1, dcV cells a k2, ?_, x2, ?_⟩
        · intro hc'
          have := hat ha.1 hb hc'
          rw [e2] at this
          exact faceCell_ne this
        · have : dcV cells a k2 = dcV cells c k2' := by unfold dcV; rw [e2, e2']
          rw [this]; exact y2
      have ms := (dc_triangle h).2 ⟨_, he, hb, hs⟩
      have mx := (dc_triangle h).2 ⟨_, he, hb, hx⟩
      have my := (dc_triangle h).2 ⟨_, hc.1, hbc, hy⟩
      exact .head ⟨ms, mx, dcQuad_link (hdist he hb 1 3 (by decide)) hs hx cs x1⟩ (.head ⟨mx, my, hxy⟩ (ih _ my y1 hc.1 hbc hy))

/-- C72, uniform dual contouring, whole mesh: if the surface does not reach the boundary of the grid, no vertex is pinched
exactly if there is no cell whose solid or whose empty corners are just two opposite ones. -/
theorem C72_uniform_dc {env : DcEnv K} (h : Filled g) (hsort : IsSort env.srt) {solver : Qef K 3}
    (hpinv : 0 < solver.pinvTolerance) {q : Qef K 3} {r : PlacedMesh K} (hr : dualContouring env g solver = some (q, r))
    (hborder : ∀ D p, CrossingEdge g D p → InteriorEdge g.maxCoord D p) :
    OneFan (triangles r.mesh.indices) ↔ ∀ P, CellIn g.maxCoord P → ∀ kind, ¬ OppositeCorners g P kind := by
  have hcells := mcCells_cellList h
  constructor
  · intro hf P hP kind hopp
    obtain ⟨i, hi⟩ := id hopp
    obtain ⟨e, he, -⟩ := kind_edge hP hi
    have hm : P ∈ mcCells g := (hcells.mem P).2 ⟨hP, e.axis, e.at_, he⟩
    obtain ⟨n, hn⟩ := List.mem_iff_getElem?.1 hm
    exact (C72_uniform_vertex h hsort hpinv hr hcells hn (fun f hf => hborder _ _ hf.1)).1 (hf n) kind hopp
  · intro hno n s hs t ht cs ct
    obtain ⟨-, htri, hin, -⟩ := C19_quads h hsort hpinv hr hcells
    have hs' := hs
    rw [htri] at hs'
    obtain ⟨e, he, hb, hq⟩ := (dc_triangle h).1 hs'
    obtain ⟨k, hk⟩ := dc_corner hq cs
    have hm : (e.seen k).cell ∈ mcCells g := by
      apply (hcells.mem _).2
      exact ⟨hb _ (around_iff.2 (edgeCorner_of _ _ k)), e.axis, e.at_, he, edgeCorner_of _ _ k⟩
    have hn : (mcCells g)[n]? = some (e.seen k).cell := by
      rw [← hk]
      unfold dcV
      exact List.getElem?_idxOf hm
    exact (C72_uniform_vertex h hsort hpinv hr hcells hn (fun f hf => hborder _ _ hf.1)).2
      (hno _ ((hcells.mem _).1 hm).1) s hs t ht cs ct

end Isomesh
