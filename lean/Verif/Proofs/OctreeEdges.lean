import Verif.Proofs.OctreeTrace

/-! The calls of `edgeProc` correspond to the minimal edges of the octree (C21). -/

namespace Isomesh
open Spec

/-- An edge event: the segment and the leaves around it. -/
structure EdgeEv (L : Type) where
  D : Axis
  p : IVec3
  j : Nat
  q : Fin 4 → Cube × L

/-- What the innermost routine receives. -/
def EdgeEv.call {L : Type} (N : Type) (e : EdgeEv L) : Axis × (Fin 4 → Oct N (Cube × L)) := (e.D, fun i => .leaf (e.q i))

structure EdgeEv.Good {L : Type} (Lv : List (Cube × L)) (e : EdgeEv L) : Prop where
  leaf : ∀ i, e.q i ∈ Lv
  contains : ∀ i, Cube.Sub ⟨edgeCorner e.D e.p (2 ^ e.j) i, e.j⟩ (e.q i).1
  least : ∃ i, (e.q i).1 = ⟨edgeCorner e.D e.p (2 ^ e.j) i, e.j⟩

/-- The segment of the event contains the point. -/
def EdgeEv.cov {L : Type} (w : IVec3) (e : EdgeEv L) : Bool := decide (inF (edgeF e.D) e.p (2 ^ e.j) w)

/-- Midpoint of a unit edge in doubled coordinates: exactly one coordinate is odd. -/
def EdgePt (w : IVec3) : Prop := ∃ D : Axis, w.get D % 2 = 1 ∧ ∀ a, a ≠ D → w.get a % 2 = 0

section
variable {N L : Type} {Lv : List (Cube × L)} {T : Trav}

/-- `Tr` for edge events. -/
def ETr (Lv : List (Cube × L)) (out : List (Axis × (Fin 4 → Oct N (Cube × L)))) (R : IVec3 → Prop) : Prop :=
  Tr Lv (EdgeEv.call N) (EdgeEv.Good Lv) EdgeEv.cov EdgePt out R

theorem TravOK.edgeBlock (hT : TravOK T) (D : Axis) (n : Fin 4 → Oct N L) : T.edgeBlock D n = dcTrav.edgeBlock D n := by
  funext j; simp only [Trav.edgeBlock, hT.edgeChild]; rfl

theorem TravOK.faceBlock (hT : TravOK T) (D : Axis) (n : Fin 2 → Oct N L) : T.faceBlock D n = dcTrav.faceBlock D n := by
  funext j; simp only [Trav.faceBlock, hT.faceChild]; rfl

theorem edge_parents (D : Axis) (i : Fin 4) : ∃ j, (dcEdgeSubTable D j).1 = i := by cases D <;> revert i <;> decide
theorem face_parents (D : Axis) (i : Fin 2) : ∃ j, (dcFaceSubTable D j).1 = i := by cases D <;> revert i <;> decide

theorem TravOK.edge_all (hT : TravOK T) (D : Axis) (n : Fin 4 → Oct N L) :
    (∀ j : Fin 8, (n (T.edgeChild D j).1).isLeaf = true) ↔ ∀ i, (n i).isLeaf = true := by
  simp only [hT.edgeChild]
  exact ⟨fun h i => by obtain ⟨j, rfl⟩ := edge_parents D i; exact h j, fun h j => h _⟩

theorem TravOK.face_all (hT : TravOK T) (D : Axis) (n : Fin 2 → Oct N L) :
    (∀ j : Fin 8, (n (T.faceChild D j).1).isLeaf = true) ↔ ∀ i, (n i).isLeaf = true := by
  simp only [hT.faceChild]
  exact ⟨fun h i => by obtain ⟨j, rfl⟩ := face_parents D i; exact h j, fun h j => h _⟩

/-- The calls for a piece of a block. -/
def outE (T : Trav) (b : Fin 8 → Oct N L) : Piece → List (Axis × (Fin 4 → Oct N L))
  | .cell i => T.cellProc (b i)
  | .face D i => T.faceProc D fun k => b (dcFaceTable D i k)
  | .edge D i => T.edgeProc D fun k => b (dcEdgeTable D i k)
  | .vert => []

theorem edgeProc_inner (hT : TravOK T) (D : Axis) (n : Fin 4 → Oct N L) (h : ¬ ∀ i, (n i).isLeaf = true) :
    T.edgeProc D n = ((List.finRange 2).map (Piece.edge D)).flatMap (outE T (dcTrav.edgeBlock D n)) := by
  rw [Trav.edgeProc, dif_neg (by rw [hT.edge_all]; exact h), List.flatMap_map]
  apply flatMap_congr'
  intro i _
  simp only [outE, hT.edgeBlock, hT.edgeCall]

theorem faceProc_inner (hT : TravOK T) (D : Axis) (n : Fin 2 → Oct N L) (h : ¬ ∀ i, (n i).isLeaf = true) :
    T.faceProc D n = (hT.facePieces D).flatMap (outE T (dcTrav.faceBlock D n)) := by
  rw [Trav.faceProc, dif_neg (by rw [hT.face_all]; exact h), hT.facePieces_eq, List.flatMap_append, List.flatMap_map,
    List.flatMap_assoc]
  simp only [List.flatMap_map, outE, hT.faceBlock, hT.edgeCall, hT.faceCall]

theorem cellProc_inner (hT : TravOK T) (d : N) (ch : Fin 8 → Oct N L) :
    T.cellProc (.inner d ch) = ((List.finRange 8).map Piece.cell ++ T.cellSteps.map hT.stepPiece).flatMap (outE T ch) := by
  rw [Trav.cellProc, List.flatMap_append, List.flatMap_map, Trav.cellCalls, List.flatMap_map]
  congr 1
  apply flatMap_congr'
  intro st _
  cases st with
  | face D i => simp only [Trav.cellStep, hT.step_face, outE, hT.faceCall]
  | edge D i => simp only [Trav.cellStep, hT.step_edge, outE, hT.edgeCall]

/-- Whichever parent is taken, each half of an edge has a child of it around it. -/
theorem edge_child_of (D : Axis) (i : Fin 2) (par : Fin 4) : ∃ c, (dcEdgeSubTable D (dcEdgeTable D i c)).1 = par := by
  cases D <;> revert i par <;> decide

theorem face_child_of (D D' : Axis) (h : D' ≠ D) (i : Fin 2) (par : Fin 2) :
    ∃ c, (dcFaceSubTable D (dcEdgeTable D' i c)).1 = par := by
  cases D <;> cases D' <;> first | exact absurd rfl h | (revert i par; decide)

theorem edge_trace (hT : TravOK T) (k : Nat) : ∀ (D : Axis) (p : IVec3) (n : Fin 4 → Oct N (Cube × L)), EdgeCfg Lv D p k n →
    (∃ i, Placed (n i) ⟨edgeCorner D p (2 ^ k) i, k⟩) →
    ETr Lv (T.edgeProc D n) (fun w => inF (edgeF D) p (2 ^ k) w) := by
  have hleaf : ∀ (k : Nat) (D : Axis) (p : IVec3) (n : Fin 4 → Oct N (Cube × L)), EdgeCfg Lv D p k n →
      (∃ i, Placed (n i) ⟨edgeCorner D p (2 ^ k) i, k⟩) → (∀ i, (n i).isLeaf = true) →
      ETr Lv (T.edgeProc D n) (fun w => inF (edgeF D) p (2 ^ k) w) := by
    intro k D p n h hp hl
    rw [Trav.edgeProc, dif_pos ((hT.edge_all D n).2 hl)]
    choose q hq hs using fun i => on_leaf (h i).1 (hl i)
    refine ⟨[⟨D, p, k, q⟩], ?_, ?_, ?_⟩
    · simp only [List.map_cons, List.map_nil, EdgeEv.call]
      rw [show n = fun i => Oct.leaf (q i) from funext hq]
    · intro e he
      rw [List.mem_singleton] at he
      subst he
      refine ⟨fun i => (h i).2 _ (by rw [hq]; simp [Oct.leaves]), hs, ?_⟩
      obtain ⟨i, hi⟩ := hp
      rw [hq] at hi
      exact ⟨i, hi⟩
    · intro w _
      simp only [List.countP_cons, List.countP_nil, EdgeEv.cov, decide_eq_true_eq]
      constructor
      · intro hn; rw [if_neg hn]
      · intro hy; rw [if_pos hy]; left; rfl
  induction k with
  | zero =>
    intro D p n h hp
    refine hleaf 0 D p n h hp fun i => ?_
    by_contra hi
    exact absurd (k_pos_of_inner (h i).1 (by simpa using hi)) (lt_irrefl _)
  | succ k ih =>
    intro D p n h hp
    by_cases hl : ∀ i, (n i).isLeaf = true
    · exact hleaf (k + 1) D p n h hp hl
    rw [edgeProc_inner hT D n hl]
    obtain ⟨par, hpar⟩ := not_forall.1 hl
    have hb := h.block
    have hpos := two_pow_pos' k
    refine Tr.block (m := centre (edgeF D) p (2 ^ k)) hpos _ ?_ _ ?_ ?_ ?_
    · refine (List.nodup_finRange 2).map ?_
      intro a b hab
      injection hab
    · intro pc hpc
      obtain ⟨i, -, rfl⟩ := List.mem_map.1 hpc
      refine ih D _ _ (hb.edgeCfg D i) ?_
      obtain ⟨c, hc⟩ := edge_child_of D i par
      refine ⟨c, ?_⟩
      rw [edge_corner_block, ← edge_child_corner, hc]
      simp only [Trav.edgeBlock, dcTrav, hc]
      refine placed_sub ?_ (by simpa using hpar) _
      have := placed_of_inner (h par).1 (by simpa using hpar)
      rwa [two_pow_succ'] at this
    · intro w hw hR
      rw [two_pow_succ'] at hR
      rcases edge_split hpos hR with hv | ⟨i, hi⟩
      · exfalso
        obtain ⟨D', h1, -⟩ := hw
        have := inF_iff.1 hv D'
        simp only [axIn, vertF, Bool.false_eq_true, if_false] at this
        omega
      · exact ⟨_, List.mem_map_of_mem (List.mem_finRange i), hi⟩
    · intro w pc hpc hin
      obtain ⟨i, -, rfl⟩ := List.mem_map.1 hpc
      rw [two_pow_succ']
      exact edge_join hpos (Or.inr ⟨i, hin⟩)

theorem face_trace (hT : TravOK T) (k : Nat) : ∀ (D : Axis) (p : IVec3) (n : Fin 2 → Oct N (Cube × L)), FaceCfg Lv D p k n →
    ETr Lv (T.faceProc D n) (fun w => inF (faceF D) p (2 ^ k) w) := by
  have hleaf : ∀ (k : Nat) (D : Axis) (p : IVec3) (n : Fin 2 → Oct N (Cube × L)), FaceCfg Lv D p k n →
      (∀ i, (n i).isLeaf = true) → ETr Lv (T.faceProc D n) (fun w => inF (faceF D) p (2 ^ k) w) := by
    intro k D p n h hl
    rw [Trav.faceProc, dif_pos ((hT.face_all D n).2 hl)]
    apply Tr.nil
    intro w ⟨D', h1, h2⟩ hR
    have hD := inF_iff.1 hR D
    simp only [axIn, faceF, ne_eq, not_true_eq_false, decide_false, Bool.false_eq_true, if_false] at hD
    have hne : D' ≠ D := by rintro rfl; omega
    obtain ⟨a, ha1, ha2⟩ : ∃ a : Axis, a ≠ D ∧ a ≠ D' := by
      cases D <;> cases D' <;> first | exact absurd rfl hne | exact ⟨.X, by decide, by decide⟩ | exact ⟨.Y, by decide, by decide⟩ | exact ⟨.Z, by decide, by decide⟩
    exact flat_face h hl hR ⟨a, ha1, h2 a ha2⟩
  induction k with
  | zero =>
    intro D p n h
    refine hleaf 0 D p n h fun i => ?_
    by_contra hi
    exact absurd (k_pos_of_inner (h i).1 (by simpa using hi)) (lt_irrefl _)
  | succ k ih =>
    intro D p n h
    by_cases hl : ∀ i, (n i).isLeaf = true
    · exact hleaf (k + 1) D p n h hl
    rw [faceProc_inner hT D n hl]
    obtain ⟨par, hpar⟩ := not_forall.1 hl
    have hb := h.block
    have hpos := two_pow_pos' k
    refine Tr.block (m := centre (faceF D) p (2 ^ k)) hpos _ (hT.face_nodup D) _ ?_ ?_ ?_
    · intro pc hpc
      rcases (hT.face_mem D pc).1 hpc with ⟨i, rfl⟩ | ⟨D', i, hD, rfl⟩
      · exact ih D _ _ (hb.faceCfg D i)
      · refine edge_trace hT k D' _ _ (hb.edgeCfg D' i) ?_
        obtain ⟨c, hc⟩ := face_child_of D D' hD i par
        refine ⟨c, ?_⟩
        rw [edge_corner_block, ← face_child_corner, hc]
        simp only [Trav.faceBlock, dcTrav, hc]
        refine placed_sub ?_ (by simpa using hpar) _
        have := placed_of_inner (h par).1 (by simpa using hpar)
        rwa [two_pow_succ'] at this
    · intro w hw hR
      rw [two_pow_succ'] at hR
      rcases face_split hpos hR with hv | ⟨i, hi⟩ | ⟨D', i, hD, hi⟩
      · exfalso
        obtain ⟨D', h1, -⟩ := hw
        have := inF_iff.1 hv D'
        simp only [axIn, vertF, Bool.false_eq_true, if_false] at this
        omega
      · exact ⟨_, (hT.face_mem D _).2 (Or.inl ⟨i, rfl⟩), hi⟩
      · exact ⟨_, (hT.face_mem D _).2 (Or.inr ⟨D', i, hD, rfl⟩), hi⟩
    · intro w pc hpc hin
      rw [two_pow_succ']
      rcases (hT.face_mem D pc).1 hpc with ⟨i, rfl⟩ | ⟨D', i, hD, rfl⟩
      · exact face_join hpos (Or.inr (Or.inl ⟨i, hin⟩))
      · exact face_join hpos (Or.inr (Or.inr ⟨D', i, hD, hin⟩))

theorem cell_trace (hT : TravOK T) (t : Oct N (Cube × L)) : ∀ (c : Cube), Placed t c → (∀ l ∈ t.leaves, l ∈ Lv) →
    ETr Lv (T.cellProc t) (fun w => inF cellF c.lo c.side w) := by
  induction t with
  | leaf d =>
    intro c hp hl
    apply Tr.nil
    intro w ⟨D', h1, h2⟩ hR
    have hp : d.1 = c := hp
    obtain ⟨a, ha⟩ : ∃ a : Axis, a ≠ D' := by cases D' <;> first | exact ⟨.X, by decide⟩ | exact ⟨.Y, by decide⟩
    refine flat_cell (p := c.lo) (k := c.k) (d := d) hp ?_ hR ⟨a, h2 a ha⟩
    exact hl d (by simp [Oct.leaves])
  | inner d ch ih =>
    intro c hp hl
    obtain ⟨hk, hp⟩ := hp
    obtain ⟨lo, k⟩ := c
    obtain ⟨k, rfl⟩ := Nat.exists_eq_succ_of_ne_zero (Nat.pos_iff_ne_zero.1 hk)
    simp only [Cube.octant, Nat.succ_sub_one] at hp
    have hpos := two_pow_pos' k
    have hlv : ∀ i, ∀ l ∈ (ch i).leaves, l ∈ Lv :=
      fun i l h => hl l (List.mem_flatMap.2 ⟨i, List.mem_finRange i, h⟩)
    have hb : Block Lv (centre cellF lo (2 ^ k)) k ch := by
      intro j
      rw [← cell_child_corner]
      exact ⟨Or.inl (hp j), hlv j⟩
    rw [cellProc_inner hT]
    refine Tr.block (m := centre cellF lo (2 ^ k)) hpos _ hT.cell_nodup _ ?_ ?_ ?_
    · intro pc hpc
      cases pc with
      | cell i =>
        have := ih i _ (hp i) (hlv i)
        rw [cell_child_corner] at this
        exact this
      | face D i => exact face_trace hT k D _ _ (hb.faceCfg D i)
      | edge D i =>
        refine edge_trace hT k D _ _ (hb.edgeCfg D i) ⟨0, ?_⟩
        rw [edge_corner_block, ← cell_child_corner]
        exact hp _
      | vert => exact absurd rfl ((hT.cell_mem _).1 hpc)
    · intro w hw hR
      simp only [Cube.side, Nat.succ_eq_add_one, two_pow_succ'] at hR
      obtain ⟨pc, hin⟩ := cell_split hpos hR
      refine ⟨pc, (hT.cell_mem pc).2 ?_, hin⟩
      rintro rfl
      obtain ⟨D', h1, -⟩ := hw
      have := inF_iff.1 hin D'
      simp only [axIn, vertF, Bool.false_eq_true, if_false] at this
      omega
    · intro w pc hpc hin
      simp only [Cube.side, Nat.succ_eq_add_one, two_pow_succ']
      exact cell_join hpos hin

end
end Isomesh
