import Verif.Props.Octree

/-! C51: the traversal of the dual marching cubes octree reaches every interior vertex once. -/

namespace Isomesh
open Spec

/-- A vertex event. -/
structure VertEv (L : Type) where
  p : IVec3
  q : Fin 8 → Cube × L

def VertEv.call {L : Type} (N : Type) (e : VertEv L) : Fin 8 → Oct N (Cube × L) := fun i => .leaf (e.q i)

structure VertEv.Good {L : Type} (Lv : List (Cube × L)) (e : VertEv L) : Prop where
  leaf : ∀ i, e.q i ∈ Lv
  contains : ∀ i, (e.q i).1.Has (vertCorner e.p 1 i)
  corner : ∃ i, (e.q i).1.lo = vertCorner e.p (e.q i).1.side i

def VertEv.cov {L : Type} (w : IVec3) (e : VertEv L) : Bool := decide (inF vertF e.p 1 w)

/-- A lattice point in doubled coordinates. -/
def VertPt (w : IVec3) : Prop := ∀ a, w.get a % 2 = 0

section
variable {N L : Type} {Lv : List (Cube × L)} {T : Trav}

def VTr (Lv : List (Cube × L)) (out : List (Fin 8 → Oct N (Cube × L))) (R : IVec3 → Prop) : Prop :=
  Tr Lv (VertEv.call N) (VertEv.Good Lv) VertEv.cov VertPt out R

theorem inF_vert {p w : IVec3} {s s' : Int} : inF vertF p s w ↔ inF vertF p s' w := by
  rw [inF_iff, inF_iff]
  exact forall_congr' fun a => by simp [axIn, vertF]

/-- The unit cell next to the point is in the cube of any size at the point. -/
theorem vert_unit_has (p : IVec3) (k : Nat) (i : Fin 8) : Cube.Has ⟨vertCorner p (2 ^ k) i, k⟩ (vertCorner p 1 i) := by
  rw [cubeHas_iff]
  intro a
  have hpos := two_pow_pos' k
  simp only [vertCorner_get, Cube.side]
  rcases octOff_01 i a with e | e <;> rw [e] <;> omega

theorem vert_trace (k : Nat) : ∀ (p : IVec3) (n : Fin 8 → Oct N (Cube × L)), Block Lv p k n →
    (∃ i, Placed (n i) ⟨vertCorner p (2 ^ k) i, k⟩) →
    VTr Lv (vertProc n) (fun w => inF vertF p (2 ^ k) w) := by
  have hleaf : ∀ (k : Nat) (p : IVec3) (n : Fin 8 → Oct N (Cube × L)), Block Lv p k n →
      (∃ i, Placed (n i) ⟨vertCorner p (2 ^ k) i, k⟩) → (∀ i, (n i).isLeaf = true) →
      VTr Lv (vertProc n) (fun w => inF vertF p (2 ^ k) w) := by
    intro k p n h hp hl
    rw [vertProc, dif_pos hl]
    choose q hq hs using fun i => on_leaf (h i).1 (hl i)
    refine ⟨[⟨p, q⟩], ?_, ?_, ?_⟩
    · simp only [List.map_cons, List.map_nil]
      rw [show n = fun i => Oct.leaf (q i) from funext hq]
      rfl
    · intro e he
      rw [List.mem_singleton] at he
      subst he
      refine ⟨fun i => (h i).2 _ (by rw [hq]; simp [Oct.leaves]), fun i => cubeSub_has (hs i) (vert_unit_has p k i), ?_⟩
      obtain ⟨i, hi⟩ := hp
      rw [hq] at hi
      have hi : (q i).1 = _ := hi
      exact ⟨i, by rw [hi]; rfl⟩
    · intro w _
      simp only [List.countP_cons, List.countP_nil, VertEv.cov, decide_eq_true_eq, inF_vert (s := 1) (s' := 2 ^ k)]
      constructor
      · intro hn; rw [if_neg hn]
      · intro hy; rw [if_pos hy]; left; rfl
  induction k with
  | zero =>
    intro p n h hp
    refine hleaf 0 p n h hp fun i => ?_
    by_contra hi
    exact absurd (k_pos_of_inner (h i).1 (by simpa using hi)) (lt_irrefl _)
  | succ k ih =>
    intro p n h hp
    by_cases hl : ∀ i, (n i).isLeaf = true
    · exact hleaf (k + 1) p n h hp hl
    rw [vertProc, dif_neg hl]
    obtain ⟨par, hpar⟩ := not_forall.1 hl
    have hb : Block Lv p k (fun i => (n i).sub (7 - i)) := by
      intro j
      obtain ⟨h1, h2⟩ := h j
      rw [two_pow_succ'] at h1
      have := on_sub h1 (7 - j)
      rw [vert_child_corner] at this
      exact ⟨this, fun l hl => h2 l (mem_leaves_sub hl)⟩
    have := ih p _ hb ⟨par, by
      rw [← vert_child_corner]
      refine placed_sub ?_ (by simpa using hpar) _
      have := placed_of_inner (h par).1 (by simpa using hpar)
      rwa [two_pow_succ'] at this⟩
    obtain ⟨A, a1, a2, a3⟩ := this
    exact ⟨A, a1, a2, fun w hw => by
      have := a3 w hw
      simp only [inF_vert (s := 2 ^ k) (s' := 2 ^ (k + 1))] at this
      exact this⟩

/-- The calls for a piece of a block. -/
def outV (T : Trav) (b : Fin 8 → Oct N L) : Piece → List (Fin 8 → Oct N L)
  | .cell i => T.cellProcV (b i)
  | .face D i => T.faceProcV D fun k => b (dcFaceTable D i k)
  | .edge D i => T.edgeProcV D fun k => b (dcEdgeTable D i k)
  | .vert => vertProc b

theorem edgeProcV_inner (hT : TravOK T) (D : Axis) (n : Fin 4 → Oct N L) (h : ¬ ∀ i, (n i).isLeaf = true) :
    T.edgeProcV D n = ((List.finRange 2).map (Piece.edge D) ++ [Piece.vert]).flatMap (outV T (dcTrav.edgeBlock D n)) := by
  rw [Trav.edgeProcV, dif_neg (by rw [hT.edge_all]; exact h), List.flatMap_append, List.flatMap_map]
  congr 1
  · apply flatMap_congr'
    intro i _
    simp only [outV, hT.edgeBlock, hT.edgeCall]
  · simp only [List.flatMap_cons, List.flatMap_nil, List.append_nil, outV, hT.edgeBlock]

theorem faceProcV_inner (hT : TravOK T) (D : Axis) (n : Fin 2 → Oct N L) (h : ¬ ∀ i, (n i).isLeaf = true) :
    T.faceProcV D n = (hT.facePieces D ++ [Piece.vert]).flatMap (outV T (dcTrav.faceBlock D n)) := by
  rw [Trav.faceProcV, dif_neg (by rw [hT.face_all]; exact h), hT.facePieces_eq, List.flatMap_append, List.flatMap_append,
    List.flatMap_map, List.flatMap_assoc]
  simp only [List.flatMap_map, outV, hT.faceBlock, hT.edgeCall, hT.faceCall, List.flatMap_cons, List.flatMap_nil,
    List.append_nil]

theorem cellProcV_inner (hT : TravOK T) (d : N) (ch : Fin 8 → Oct N L) :
    T.cellProcV (.inner d ch) =
      (((List.finRange 8).map Piece.cell ++ T.cellSteps.map hT.stepPiece) ++ [Piece.vert]).flatMap (outV T ch) := by
  rw [Trav.cellProcV, List.flatMap_append, List.flatMap_append, List.flatMap_map, List.flatMap_map]
  congr 1
  · congr 1
    apply flatMap_congr'
    intro st _
    cases st with
    | face D i => simp only [Trav.cellStepV, hT.step_face, outV, hT.faceCall]
    | edge D i => simp only [Trav.cellStepV, hT.step_edge, outV, hT.edgeCall]
  · simp only [List.flatMap_cons, List.flatMap_nil, List.append_nil, outV]

theorem edge_traceV (hT : TravOK T) (k : Nat) : ∀ (D : Axis) (p : IVec3) (n : Fin 4 → Oct N (Cube × L)), EdgeCfg Lv D p k n →
    VTr Lv (T.edgeProcV D n) (fun w => inF (edgeF D) p (2 ^ k) w) := by
  have hleaf : ∀ (k : Nat) (D : Axis) (p : IVec3) (n : Fin 4 → Oct N (Cube × L)), EdgeCfg Lv D p k n →
      (∀ i, (n i).isLeaf = true) → VTr Lv (T.edgeProcV D n) (fun w => inF (edgeF D) p (2 ^ k) w) := by
    intro k D p n h hl
    rw [Trav.edgeProcV, dif_pos ((hT.edge_all D n).2 hl)]
    exact Tr.nil fun w hw hR => flat_edge h hl hR (hw D)
  induction k with
  | zero =>
    intro D p n h
    refine hleaf 0 D p n h fun i => ?_
    by_contra hi
    exact absurd (k_pos_of_inner (h i).1 (by simpa using hi)) (lt_irrefl _)
  | succ k ih =>
    intro D p n h
    by_cases hl : ∀ i, (n i).isLeaf = true
    · exact hleaf (k + 1) D p n h hl
    rw [edgeProcV_inner hT D n hl]
    obtain ⟨par, hpar⟩ := not_forall.1 hl
    have hb := h.block
    have hpos := two_pow_pos' k
    refine Tr.block (m := centre (edgeF D) p (2 ^ k)) hpos _ ?_ _ ?_ ?_ ?_
    · cases D <;> decide +kernel
    · intro pc hpc
      rcases List.mem_append.1 hpc with hpc | hpc
      · obtain ⟨i, -, rfl⟩ := List.mem_map.1 hpc
        exact ih D _ _ (hb.edgeCfg D i)
      · rw [List.mem_singleton] at hpc
        subst hpc
        refine vert_trace k _ _ hb ?_
        obtain ⟨j, hj⟩ := edge_parents D par
        refine ⟨j, ?_⟩
        rw [← edge_child_corner, hj]
        simp only [Trav.edgeBlock, dcTrav, hj]
        refine placed_sub ?_ (by simpa using hpar) _
        have := placed_of_inner (h par).1 (by simpa using hpar)
        rwa [two_pow_succ'] at this
    · intro w _ hR
      rw [two_pow_succ'] at hR
      rcases edge_split hpos hR with hv | ⟨i, hi⟩
      · exact ⟨_, List.mem_append_right _ (List.mem_singleton_self _), hv⟩
      · exact ⟨_, List.mem_append_left _ (List.mem_map_of_mem (List.mem_finRange i)), hi⟩
    · intro w pc hpc hin
      rw [two_pow_succ']
      rcases List.mem_append.1 hpc with hpc | hpc
      · obtain ⟨i, -, rfl⟩ := List.mem_map.1 hpc
        exact edge_join hpos (Or.inr ⟨i, hin⟩)
      · rw [List.mem_singleton] at hpc
        subst hpc
        exact edge_join hpos (Or.inl hin)

theorem face_traceV (hT : TravOK T) (k : Nat) : ∀ (D : Axis) (p : IVec3) (n : Fin 2 → Oct N (Cube × L)), FaceCfg Lv D p k n →
    VTr Lv (T.faceProcV D n) (fun w => inF (faceF D) p (2 ^ k) w) := by
  have hleaf : ∀ (k : Nat) (D : Axis) (p : IVec3) (n : Fin 2 → Oct N (Cube × L)), FaceCfg Lv D p k n →
      (∀ i, (n i).isLeaf = true) → VTr Lv (T.faceProcV D n) (fun w => inF (faceF D) p (2 ^ k) w) := by
    intro k D p n h hl
    rw [Trav.faceProcV, dif_pos ((hT.face_all D n).2 hl)]
    apply Tr.nil
    intro w hw hR
    obtain ⟨a, ha⟩ : ∃ a : Axis, a ≠ D := by cases D <;> first | exact ⟨.X, by decide⟩ | exact ⟨.Y, by decide⟩
    exact flat_face h hl hR ⟨a, ha, hw a⟩
  induction k with
  | zero =>
    intro D p n h
    refine hleaf 0 D p n h fun i => ?_
    by_contra hi
    exact absurd (k_pos_of_inner (h i).1 (by simpa using hi)) (lt_irrefl _)
  | succ k ih =>
    intro D p n h
    by_cases hl : ∀ i, (n i).isLeaf = true
    · exact hleaf (k + 1) D p n h hl
    rw [faceProcV_inner hT D n hl]
    obtain ⟨par, hpar⟩ := not_forall.1 hl
    have hb := h.block
    have hpos := two_pow_pos' k
    have nd : (hT.facePieces D ++ [Piece.vert]).Nodup := by
      rw [List.nodup_append]
      refine ⟨hT.face_nodup D, List.nodup_singleton _, ?_⟩
      intro a ha b hb
      rw [List.mem_singleton] at hb
      subst hb
      rintro rfl
      rcases (hT.face_mem D _).1 ha with ⟨i, h⟩ | ⟨D', i, -, h⟩ <;> cases h
    refine Tr.block (m := centre (faceF D) p (2 ^ k)) hpos _ nd _ ?_ ?_ ?_
    · intro pc hpc
      rcases List.mem_append.1 hpc with hpc | hpc
      · rcases (hT.face_mem D pc).1 hpc with ⟨i, rfl⟩ | ⟨D', i, hD, rfl⟩
        · exact ih D _ _ (hb.faceCfg D i)
        · exact edge_traceV hT k D' _ _ (hb.edgeCfg D' i)
      · rw [List.mem_singleton] at hpc
        subst hpc
        refine vert_trace k _ _ hb ?_
        obtain ⟨j, hj⟩ := face_parents D par
        refine ⟨j, ?_⟩
        rw [← face_child_corner, hj]
        simp only [Trav.faceBlock, dcTrav, hj]
        refine placed_sub ?_ (by simpa using hpar) _
        have := placed_of_inner (h par).1 (by simpa using hpar)
        rwa [two_pow_succ'] at this
    · intro w hw hR
      rw [two_pow_succ'] at hR
      rcases face_split hpos hR with hv | ⟨i, hi⟩ | ⟨D', i, hD, hi⟩
      · exact ⟨_, List.mem_append_right _ (List.mem_singleton_self _), hv⟩
      · exact ⟨_, List.mem_append_left _ ((hT.face_mem D _).2 (Or.inl ⟨i, rfl⟩)), hi⟩
      · exact ⟨_, List.mem_append_left _ ((hT.face_mem D _).2 (Or.inr ⟨D', i, hD, rfl⟩)), hi⟩
    · intro w pc hpc hin
      rw [two_pow_succ']
      rcases List.mem_append.1 hpc with hpc | hpc
      · rcases (hT.face_mem D pc).1 hpc with ⟨i, rfl⟩ | ⟨D', i, hD, rfl⟩
        · exact face_join hpos (Or.inr (Or.inl ⟨i, hin⟩))
        · exact face_join hpos (Or.inr (Or.inr ⟨D', i, hD, hin⟩))
      · rw [List.mem_singleton] at hpc
        subst hpc
        exact face_join hpos (Or.inl hin)

theorem cell_traceV (hT : TravOK T) (t : Oct N (Cube × L)) : ∀ (c : Cube), Placed t c → (∀ l ∈ t.leaves, l ∈ Lv) →
    VTr Lv (T.cellProcV t) (fun w => inF cellF c.lo c.side w) := by
  induction t with
  | leaf d =>
    intro c hp hl
    apply Tr.nil
    intro w hw hR
    have hp : d.1 = c := hp
    exact flat_cell (p := c.lo) (k := c.k) (d := d) hp (hl d (by simp [Oct.leaves])) hR ⟨.X, hw .X⟩
  | inner d ch ih =>
    intro c hp hl
    obtain ⟨hk, hp⟩ := hp
    obtain ⟨lo, k⟩ := c
    obtain ⟨k, rfl⟩ := Nat.exists_eq_succ_of_ne_zero (Nat.pos_iff_ne_zero.1 hk)
    simp only [Cube.octant, Nat.succ_sub_one] at hp
    have hpos := two_pow_pos' k
    have hlv : ∀ i, ∀ l ∈ (ch i).leaves, l ∈ Lv :=
      fun i l h => hl l (List.mem_flatMap.2 ⟨i, List.mem_finRange i, h⟩)
    have hb : Block Lv (centre cellF lo (2 ^ k)) k ch := by
      intro j
      rw [← cell_child_corner]
      exact ⟨Or.inl (hp j), hlv j⟩
    rw [cellProcV_inner hT]
    have nd : (((List.finRange 8).map Piece.cell ++ T.cellSteps.map hT.stepPiece) ++ [Piece.vert]).Nodup := by
      rw [List.nodup_append]
      refine ⟨hT.cell_nodup, List.nodup_singleton _, ?_⟩
      intro a ha b hb
      rw [List.mem_singleton] at hb
      subst hb
      exact (hT.cell_mem a).1 ha
    refine Tr.block (m := centre cellF lo (2 ^ k)) hpos _ nd _ ?_ ?_ ?_
    · intro pc _
      cases pc with
      | cell i =>
        have := ih i _ (hp i) (hlv i)
        rw [cell_child_corner] at this
        exact this
      | face D i => exact face_traceV hT k D _ _ (hb.faceCfg D i)
      | edge D i => exact edge_traceV hT k D _ _ (hb.edgeCfg D i)
      | vert =>
        refine vert_trace k _ _ hb ⟨0, ?_⟩
        rw [← cell_child_corner]
        exact hp _
    · intro w hw hR
      simp only [Cube.side, Nat.succ_eq_add_one, two_pow_succ'] at hR
      obtain ⟨pc, hin⟩ := cell_split hpos hR
      refine ⟨pc, ?_, hin⟩
      by_cases hv : pc = .vert
      · exact List.mem_append_right _ (by rw [hv]; exact List.mem_singleton_self _)
      · exact List.mem_append_left _ ((hT.cell_mem pc).2 hv)
    · intro w pc hpc hin
      simp only [Cube.side, Nat.succ_eq_add_one, two_pow_succ']
      exact cell_join hpos hin

/-! ### Uniqueness -/

/-- The point in doubled coordinates. -/
def VertEv.pt (e : VertEv L) : IVec3 := ⟨2 * e.p.x, 2 * e.p.y, 2 * e.p.z⟩

theorem pt_get (e : VertEv L) (a : Axis) : e.pt.get a = 2 * e.p.get a := by cases a <;> rfl

theorem pt_cov (e : VertEv L) : e.cov e.pt = true := by
  rw [VertEv.cov, decide_eq_true_eq, inF_iff]
  intro a
  rw [pt_get]
  simp [axIn, vertF]

theorem vcov_unique {e e' : VertEv L} (h : e'.cov e.pt = true) : e'.p = e.p := by
  rw [VertEv.cov, decide_eq_true_eq, inF_iff] at h
  apply ivec_ext
  intro a
  have := h a
  rw [pt_get] at this
  simp only [axIn, vertF, Bool.false_eq_true, if_false] at this
  omega

theorem vgood_unique {t : Oct N (Cube × L)} {c : Cube} (hp : Placed t c) {e e' : VertEv L} (h : e.Good t.leaves)
    (h' : e'.Good t.leaves) (hc : e'.cov e.pt = true) : e' = e := by
  have := vcov_unique hc
  obtain ⟨p, q⟩ := e
  obtain ⟨p', q'⟩ := e'
  simp only at this
  subst this
  have : q' = q := by
    funext i
    exact leaf_unique hp _ (h'.leaf i) _ (h.leaf i) _ (h'.contains i) (h.contains i)
  rw [this]

theorem vgood_not_flat {t : Oct N (Cube × L)} {c : Cube} (hp : Placed t c) {e : VertEv L} (h : e.Good t.leaves) :
    ¬ FlatAt t.leaves e.pt := by
  rintro ⟨a, -, hf⟩
  obtain ⟨i, hi⟩ := h.corner
  have hflip : ∀ (i : Fin 8) (a : Axis), (octOff i).get a = 0 → ∃ j : Fin 8, vertCorner e.p 1 j = nextCell a (vertCorner e.p 1 i) := by
    intro i a h0
    obtain ⟨j, hj⟩ : ∃ j : Fin 8, ∀ b ∈ [Axis.X, .Y, .Z], (octOff j).get b = (octOff i).get b + if b = a then 1 else 0 := by
      revert i; cases a <;> decide
    refine ⟨j, ivec_ext fun b => ?_⟩
    rw [nextCell_get, vertCorner_get, vertCorner_get, hj b (by cases b <;> simp)]
    ring
  have hflip' : ∀ (i : Fin 8) (a : Axis), (octOff i).get a = 1 → ∃ j : Fin 8, (octOff j).get a = 0 ∧ vertCorner e.p 1 i = nextCell a (vertCorner e.p 1 j) := by
    intro i a h0
    obtain ⟨j, hj0, hj⟩ : ∃ j : Fin 8, (octOff j).get a = 0 ∧ ∀ b ∈ [Axis.X, .Y, .Z], (octOff i).get b = (octOff j).get b + if b = a then 1 else 0 := by
      revert i; cases a <;> decide
    refine ⟨j, hj0, ivec_ext fun b => ?_⟩
    rw [nextCell_get, vertCorner_get, vertCorner_get, hj b (by cases b <;> simp)]
    ring
  have ht : ∀ j, Touch (vertCorner e.p 1 j) e.pt := by
    intro j b
    rw [pt_get, vertCorner_get]
    rcases octOff_01 j b with e | e <;> rw [e] <;> omega
  have hpos := side_pos (e.q i).1
  rcases octOff_01 i a with h0 | h0
  · obtain ⟨j, hj⟩ := hflip i a h0
    obtain ⟨l, hl, l1, l2⟩ := hf _ (ht i) (hj ▸ ht j)
    have := leaf_unique hp l hl _ (h.leaf i) _ l1 (h.contains i)
    subst this
    have b := cubeHas_iff.1 l2 a
    rw [nextCell_get, if_pos rfl, hi, vertCorner_get, vertCorner_get, h0] at b
    omega
  · obtain ⟨j, hj0, hj⟩ := hflip' i a h0
    obtain ⟨l, hl, l1, l2⟩ := hf _ (ht j) (hj ▸ ht i)
    rw [← hj] at l2
    have := leaf_unique hp l hl _ (h.leaf i) _ l2 (h.contains i)
    subst this
    have b := cubeHas_iff.1 l1 a
    rw [hi, vertCorner_get, vertCorner_get, h0, hj0] at b
    omega

theorem vgood_inside {t : Oct N (Cube × L)} {c : Cube} (hp : Placed t c) {e : VertEv L} (h : e.Good t.leaves) :
    inF cellF c.lo c.side e.pt := by
  rw [inF_iff]
  intro a
  unfold axIn cellF
  rw [if_pos rfl, pt_get]
  have k0 := cubeHas_iff.1 (cubeSub_has (leaf_sub hp _ (h.leaf 0)) (h.contains 0)) a
  have k7 := cubeHas_iff.1 (cubeSub_has (leaf_sub hp _ (h.leaf 7)) (h.contains 7)) a
  rw [vertCorner_get] at k0 k7
  have e0 : (octOff 0).get a = 0 := by cases a <;> rfl
  have e7 : (octOff 7).get a = 1 := by cases a <;> rfl
  rw [e0] at k0
  rw [e7] at k7
  omega

/-! ### Relabelling -/

variable {N' L' : Type} (f : N → N') (g : L → L')

theorem vertProc_map (n : Fin 8 → Oct N L) :
    vertProc (fun i => (n i).map f g) = (vertProc n).map fun x i => (x i).map f g := by
  induction hm : maxHeight n using Nat.strong_induction_on generalizing n with
  | _ m ih =>
    subst hm
    by_cases h : ∀ j : Fin 8, (n j).isLeaf = true
    · rw [vertProc.eq_1 n, vertProc.eq_1 fun i => (n i).map f g, dif_pos h, dif_pos (by simpa only [isLeaf_map] using h)]
      rfl
    · rw [vertProc.eq_1 n, vertProc.eq_1 fun i => (n i).map f g, dif_neg h, dif_neg (by simpa only [isLeaf_map] using h)]
      have := ih _ (maxHeight_lt (src := id) (ch := fun i => 7 - i) h id) _ rfl
      simp only [sub_map]
      exact this

theorem edgeProcV_map (T : Trav) (D : Axis) (n : Fin 4 → Oct N L) :
    T.edgeProcV D (fun i => (n i).map f g) = (T.edgeProcV D n).map fun x i => (x i).map f g := by
  induction hm : maxHeight n using Nat.strong_induction_on generalizing n with
  | _ m ih =>
    subst hm
    by_cases h : ∀ j : Fin 8, (n (T.edgeChild D j).1).isLeaf = true
    · rw [Trav.edgeProcV, Trav.edgeProcV, dif_pos h, dif_pos (by simpa only [isLeaf_map] using h)]
      rfl
    · rw [Trav.edgeProcV, Trav.edgeProcV, dif_neg h, dif_neg (by simpa only [isLeaf_map] using h), List.map_append, map_flatMap']
      congr 1
      · apply flatMap_congr'
        intro i _
        have := ih _ (maxHeight_lt (fun j => (T.edgeChild D j).1) (fun j => (T.edgeChild D j).2) h (T.edgeCall D i)) _ rfl
        simp only [Trav.edgeBlock, sub_map]
        exact this
      · rw [← vertProc_map]
        congr 1
        funext j
        simp only [Trav.edgeBlock, sub_map]

theorem faceProcV_map (T : Trav) (D : Axis) (n : Fin 2 → Oct N L) :
    T.faceProcV D (fun i => (n i).map f g) = (T.faceProcV D n).map fun x i => (x i).map f g := by
  induction hm : maxHeight n using Nat.strong_induction_on generalizing n with
  | _ m ih =>
    subst hm
    by_cases h : ∀ j : Fin 8, (n (T.faceChild D j).1).isLeaf = true
    · rw [Trav.faceProcV, Trav.faceProcV, dif_pos h, dif_pos (by simpa only [isLeaf_map] using h)]
      rfl
    · rw [Trav.faceProcV, Trav.faceProcV, dif_neg h, dif_neg (by simpa only [isLeaf_map] using h), List.map_append, List.map_append,
        map_flatMap', map_flatMap']
      congr 1
      · congr 1
        · apply flatMap_congr'
          intro i _
          have := ih _ (maxHeight_lt (fun j => (T.faceChild D j).1) (fun j => (T.faceChild D j).2) h (T.faceCall D i)) _ rfl
          simp only [Trav.faceBlock, sub_map]
          exact this
        · apply flatMap_congr'
          intro D' _
          rw [map_flatMap']
          apply flatMap_congr'
          intro i _
          rw [← edgeProcV_map]
          simp only [Trav.faceBlock, sub_map]
      · rw [← vertProc_map]
        congr 1
        funext j
        simp only [Trav.faceBlock, sub_map]

theorem cellProcV_map (T : Trav) (t : Oct N L) : T.cellProcV (t.map f g) = (T.cellProcV t).map fun x i => (x i).map f g := by
  induction t with
  | leaf d => rfl
  | inner d ch ih =>
    simp only [Oct.map, Trav.cellProcV, List.map_append, map_flatMap']
    congr 1
    · congr 1
      · exact flatMap_congr' fun i _ => ih i
      · apply flatMap_congr'
        intro st _
        cases st with
        | face D i => exact faceProcV_map f g T D _
        | edge D i => exact edgeProcV_map f g T D _
    · exact vertProc_map f g ch

/-- C51.  For every octree and every cube large enough for it, the traversal of `DMC_Octree::contour` calls the dual cell
routine exactly once for each lattice point inside the cube that is a corner of a leaf, with the leaves in the eight
octants around it, and for nothing else. -/
theorem C51_dmc_vertices (t : Oct N L) (c : Cube) (h : t.height ≤ c.k) :
    ∃ visits : List (IVec3 × (Fin 8 → Cube × L)),
      dcTrav.cellProcV t = visits.map (fun v i => Oct.leaf (v.2 i).2) ∧
      (visits.map fun v => v.1).Nodup ∧
      ∀ p q, (p, q) ∈ visits ↔ MinimalVertex t c p q := by
  have hp := placed_locate t c h
  obtain ⟨A, hA, hg, hc⟩ := cell_traceV dcTravOK (locate t c) c hp (fun l hl => hl)
  have hiff : ∀ e : VertEv L, e ∈ A ↔ e.Good (locate t c).leaves := by
    refine fun e => ⟨hg e, fun he => ?_⟩
    rcases (hc e.pt fun a => by rw [pt_get]; omega).2 (vgood_inside hp he) with h1 | ⟨-, hfl⟩
    · obtain ⟨e', he', hcov⟩ := List.countP_pos_iff.1 (by omega : 0 < A.countP (VertEv.cov e.pt))
      have := vgood_unique hp he (hg e' he') hcov
      rwa [← this]
    · exact absurd hfl (vgood_not_flat hp he)
  refine ⟨A.map fun e => (e.p, e.q), ?_, ?_, ?_⟩
  · conv_lhs => rw [← locate_map t c]
    rw [cellProcV_map, ← hA, List.map_map, List.map_map]
    rfl
  · rw [List.map_map]
    refine count_one_nodup _ (fun a b => b.cov a.pt) ?_ A ?_
    · intro a b h
      have h : a.p = b.p := h
      have hm : a.pt = b.pt := by simp only [VertEv.pt, h]
      rw [hm]
      exact pt_cov b
    · intro e he
      rcases (hc e.pt fun a => by rw [pt_get]; omega).2 (vgood_inside hp (hg e he)) with h1 | ⟨h0, -⟩
      · exact h1.le
      · exact h0.le.trans (Nat.zero_le 1)
  · intro p q
    have : (p, q) ∈ A.map (fun e => (e.p, e.q)) ↔ (⟨p, q⟩ : VertEv L) ∈ A := by
      rw [List.mem_map]
      constructor
      · rintro ⟨⟨p', q'⟩, he, h⟩
        simp only [Prod.mk.injEq] at h
        obtain ⟨rfl, rfl⟩ := h
        exact he
      · intro h; exact ⟨_, h, rfl⟩
    rw [this, hiff]
    exact ⟨fun h => ⟨h.leaf, h.contains, h.corner⟩, fun h => ⟨h.leaf, h.contains, h.corner⟩⟩

/-- The example octree has a vertex between small and large leaves. -/
theorem demo_vertex : MinimalVertex demoOct ⟨⟨0, 0, 0⟩, 2⟩ ⟨1, 2, 1⟩
    ![(⟨⟨0, 1, 0⟩, 0⟩, 14), (⟨⟨0, 1, 1⟩, 0⟩, 15), (⟨⟨1, 1, 0⟩, 0⟩, 16), (⟨⟨1, 1, 1⟩, 0⟩, 17),
      (⟨⟨0, 2, 0⟩, 1⟩, 4), (⟨⟨0, 2, 0⟩, 1⟩, 4), (⟨⟨0, 2, 0⟩, 1⟩, 4), (⟨⟨0, 2, 0⟩, 1⟩, 4)] where
  leaf := by decide
  contains := by unfold Cube.Has; decide
  corner := ⟨0, by decide⟩

end
end Isomesh
