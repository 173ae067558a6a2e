import Verif.Proofs.Octree
import Mathlib.Data.List.Nodup

/-! Tracing the octree traversals (C21, C51): the calls of the innermost routine correspond to lattice edges or vertices,
each hit exactly once. -/

namespace Isomesh
open Spec

/-- A traversal with the tables of `dcTrav` up to the order of calls. -/
structure TravOK (T : Trav) where
  edgeChild : ∀ D j, T.edgeChild D j = dcEdgeSubTable D j
  edgeCall : ∀ D i k, T.edgeCall D i k = dcEdgeTable D i k
  faceChild : ∀ D j, T.faceChild D j = dcFaceSubTable D j
  σ : Axis → Fin 4 → Fin 4
  faceCall : ∀ D i k, T.faceCall D i k = dcFaceTable D (σ D i) k
  /-- Piece of a step of `cellProc`. -/
  stepPiece : CellStep → Piece
  step_face : ∀ D i, stepPiece (.face D i) = .face D (σ D i)
  step_edge : ∀ D i, stepPiece (.edge D i) = .edge D i
  /-- Pieces of a face. -/
  facePieces : Axis → List Piece
  facePieces_eq : ∀ D, facePieces D = (List.finRange 4).map (fun i => Piece.face D (σ D i)) ++
    (T.faceEdges D).flatMap (fun D' => (List.finRange 2).map (Piece.edge D'))
  face_nodup : ∀ D, (facePieces D).Nodup
  face_mem : ∀ D pc, pc ∈ facePieces D ↔ (∃ i, pc = .face D i) ∨ (∃ D' i, D' ≠ D ∧ pc = .edge D' i)
  cell_nodup : ((List.finRange 8).map Piece.cell ++ T.cellSteps.map stepPiece).Nodup
  cell_mem : ∀ pc, pc ∈ (List.finRange 8).map Piece.cell ++ T.cellSteps.map stepPiece ↔ pc ≠ .vert

def stepPieceOf (σ : Axis → Fin 4 → Fin 4) : CellStep → Piece
  | .face D i => .face D (σ D i)
  | .edge D i => .edge D i

def facePiecesOf (T : Trav) (σ : Axis → Fin 4 → Fin 4) (D : Axis) : List Piece :=
  (List.finRange 4).map (fun i => Piece.face D (σ D i)) ++
    (T.faceEdges D).flatMap (fun D' => (List.finRange 2).map (Piece.edge D'))

theorem face_mem_of_all {T : Trav} {σ : Axis → Fin 4 → Fin 4} (D : Axis)
    (h : ∀ pc ∈ allPieces, pc ∈ facePiecesOf T σ D ↔
      (∃ i, pc = Piece.face D i) ∨ (∃ D' ∈ [Axis.X, .Y, .Z], ∃ i, D' ≠ D ∧ pc = Piece.edge D' i)) (pc : Piece) :
    pc ∈ facePiecesOf T σ D ↔ (∃ i, pc = .face D i) ∨ (∃ D' i, D' ≠ D ∧ pc = .edge D' i) := by
  rw [h pc (mem_allPieces pc)]
  constructor
  · rintro (h | ⟨D', -, h⟩)
    · exact Or.inl h
    · exact Or.inr ⟨D', h⟩
  · rintro (h | ⟨D', h⟩)
    · exact Or.inl h
    · exact Or.inr ⟨D', by cases D' <;> simp, h⟩

def dcTravOK : TravOK dcTrav where
  edgeChild _ _ := rfl
  edgeCall _ _ _ := rfl
  faceChild _ _ := rfl
  σ _ i := i
  faceCall _ _ _ := rfl
  stepPiece := stepPieceOf fun _ i => i
  step_face _ _ := rfl
  step_edge _ _ := rfl
  facePieces := facePiecesOf dcTrav fun _ i => i
  facePieces_eq _ := rfl
  face_nodup D := by cases D <;> decide +kernel
  face_mem D := by
    apply face_mem_of_all
    cases D <;> decide +kernel
  cell_nodup := by decide +kernel
  cell_mem pc := by
    have h : ∀ pc ∈ allPieces, pc ∈ (List.finRange 8).map Piece.cell ++ dcTrav.cellSteps.map (stepPieceOf fun _ i => i) ↔
      pc ≠ .vert := by decide +kernel
    exact h pc (mem_allPieces pc)

def mdcSigma : Axis → Fin 4 → Fin 4
  | .X => ![0, 3, 1, 2]
  | .Y => ![0, 1, 3, 2]
  | .Z => ![0, 1, 3, 2]

def mdcTravOK : TravOK mdcTrav where
  edgeChild D j := by cases D <;> revert j <;> decide +kernel
  edgeCall D i k := by cases D <;> revert i k <;> decide +kernel
  faceChild D j := by cases D <;> revert j <;> decide +kernel
  σ := mdcSigma
  faceCall D i k := by cases D <;> revert i k <;> decide +kernel
  stepPiece := stepPieceOf mdcSigma
  step_face _ _ := rfl
  step_edge _ _ := rfl
  facePieces := facePiecesOf mdcTrav mdcSigma
  facePieces_eq _ := rfl
  face_nodup D := by cases D <;> decide +kernel
  face_mem D := by
    apply face_mem_of_all
    cases D <;> decide +kernel
  cell_nodup := by decide +kernel
  cell_mem pc := by
    have h : ∀ pc ∈ allPieces, pc ∈ (List.finRange 8).map Piece.cell ++ mdcTrav.cellSteps.map (stepPieceOf mdcSigma) ↔
      pc ≠ .vert := by decide +kernel
    exact h pc (mem_allPieces pc)

/-! ### Points and flatness -/

/-- The unit cell with lower corner `c` touches the point `w` (doubled coordinates). -/
def Touch (c w : IVec3) : Prop := ∀ a, 2 * c.get a ≤ w.get a ∧ w.get a ≤ 2 * c.get a + 2

/-- The neighbour along an axis. -/
def nextCell (a : Axis) (c : IVec3) : IVec3 :=
  match a with
  | .X => ⟨c.x + 1, c.y, c.z⟩
  | .Y => ⟨c.x, c.y + 1, c.z⟩
  | .Z => ⟨c.x, c.y, c.z + 1⟩

theorem nextCell_get (a b : Axis) (c : IVec3) : (nextCell a c).get b = c.get b + if b = a then 1 else 0 := by
  cases a <;> cases b <;> simp [nextCell, IVec3.get]

theorem cubeHas_iff {c : Cube} {u : IVec3} : c.Has u ↔ ∀ a, c.lo.get a ≤ u.get a ∧ u.get a < c.lo.get a + c.side :=
  ⟨fun h a => by cases a; exacts [h.1, h.2.1, h.2.2], fun h => ⟨h .X, h .Y, h .Z⟩⟩

theorem cubeSub_iff {a b : Cube} : a.Sub b ↔ ∀ x, b.lo.get x ≤ a.lo.get x ∧ a.lo.get x + a.side ≤ b.lo.get x + b.side :=
  ⟨fun h x => by cases x; exacts [h.1, h.2.1, h.2.2], fun h => ⟨h .X, h .Y, h .Z⟩⟩

theorem cubeSub_has {a b : Cube} (h : a.Sub b) {u : IVec3} (hu : a.Has u) : b.Has u := by
  rw [cubeHas_iff] at *
  rw [cubeSub_iff] at h
  intro x
  have h1 := h x
  have h2 := hu x
  omega

theorem inF_iff {f : Axis → Bool} {p : IVec3} {s : Int} {w : IVec3} :
    inF f p s w ↔ ∀ a, axIn (f a) (p.get a) (w.get a) s :=
  ⟨fun h a => by cases a; exacts [h.1, h.2.1, h.2.2], fun h => ⟨h .X, h .Y, h .Z⟩⟩

section
variable {N L : Type}

/-- There is an even axis such that any two adjacent cells at `w`, one behind the other along this axis, belong to one
leaf. -/
def FlatAt (Lv : List (Cube × L)) (w : IVec3) : Prop :=
  ∃ a, w.get a % 2 = 0 ∧ ∀ c, Touch c w → Touch (nextCell a c) w → ∃ l ∈ Lv, l.1.Has c ∧ l.1.Has (nextCell a c)

/-- A list of calls `out` is accounted for by events: each event is good, and each point of the region `R` is covered by
exactly one event, or is flat and covered by none; points outside are not covered. -/
def Tr {E Out : Type} (Lv : List (Cube × L)) (fg : E → Out) (good : E → Prop) (cov : IVec3 → E → Bool) (Pt : IVec3 → Prop)
    (out : List Out) (R : IVec3 → Prop) : Prop :=
  ∃ A : List E, A.map fg = out ∧ (∀ e ∈ A, good e) ∧
    ∀ w, Pt w → (¬ R w → A.countP (cov w) = 0) ∧ (R w → A.countP (cov w) = 1 ∨ (A.countP (cov w) = 0 ∧ FlatAt Lv w))

variable {E Out : Type} {Lv : List (Cube × L)} {fg : E → Out} {good : E → Prop} {cov : IVec3 → E → Bool} {Pt : IVec3 → Prop}

theorem Tr.nil {R : IVec3 → Prop} (h : ∀ w, Pt w → R w → FlatAt Lv w) : Tr Lv fg good cov Pt [] R :=
  ⟨[], rfl, by simp, fun w hw => ⟨fun _ => rfl, fun hr => Or.inr ⟨rfl, h w hw hr⟩⟩⟩

theorem map_flatMap' {α β γ : Type} (l : List α) (g : α → List β) (f : β → γ) :
    (l.flatMap g).map f = l.flatMap (fun a => (g a).map f) := by
  induction l with
  | nil => rfl
  | cons a l ih => simp [ih]

theorem flatMap_congr' {α β : Type} {l : List α} {f g : α → List β} (h : ∀ a ∈ l, f a = g a) : l.flatMap f = l.flatMap g := by
  induction l with
  | nil => rfl
  | cons a l ih =>
    rw [List.flatMap_cons, List.flatMap_cons, h a List.mem_cons_self, ih fun b hb => h b (List.mem_cons_of_mem _ hb)]

theorem Tr.block {m : IVec3} {s : Int} (hs : 0 < s) {R : IVec3 → Prop} (PL : List Piece) (nd : PL.Nodup)
    (out : Piece → List Out) (h : ∀ pc ∈ PL, Tr Lv fg good cov Pt (out pc) (fun w => pc.In m s w))
    (h1 : ∀ w, Pt w → R w → ∃ pc ∈ PL, pc.In m s w) (h2 : ∀ w, ∀ pc ∈ PL, pc.In m s w → R w) :
    Tr Lv fg good cov Pt (PL.flatMap out) R := by
  have h' : ∀ pc : Piece, ∃ A : List E, pc ∈ PL → A.map fg = out pc ∧ (∀ e ∈ A, good e) ∧
      ∀ w, Pt w → (¬ pc.In m s w → A.countP (cov w) = 0) ∧
        (pc.In m s w → A.countP (cov w) = 1 ∨ (A.countP (cov w) = 0 ∧ FlatAt Lv w)) := by
    intro pc
    by_cases hp : pc ∈ PL
    · obtain ⟨A, hA⟩ := h pc hp
      exact ⟨A, fun _ => hA⟩
    · exact ⟨[], fun h => absurd h hp⟩
  choose A hA using h'
  refine ⟨PL.flatMap A, ?_, ?_, ?_⟩
  · rw [map_flatMap']
    exact flatMap_congr' fun pc hpc => (hA pc hpc).1
  · intro e he
    obtain ⟨pc, hpc, he⟩ := List.mem_flatMap.1 he
    exact (hA pc hpc).2.1 e he
  · intro w hw
    obtain ⟨c1, c2⟩ := block_count (cov w) (m := m) (w := w) hs PL nd A (fun pc hpc hn => ((hA pc hpc).2.2 w hw).1 hn)
    constructor
    · intro hR
      exact c2 fun pc hpc hin => hR (h2 w pc hpc hin)
    · intro hR
      obtain ⟨pc, hpc, hin⟩ := h1 w hw hR
      rw [c1 pc hpc hin]
      exact ((hA pc hpc).2.2 w hw).2 hin

/-! ### Regions divided into pieces -/

theorem two_edge_pieces {D : Axis} {p : IVec3} {s : Int} (hs : 0 < s) {w : IVec3} :
    inF (edgeF D) p (2 * s) w ↔ inBlock (centre (edgeF D) p s) s w ∧ ∀ a, a ≠ D → ptCls (centre (edgeF D) p s) w a = 0 := by
  rw [inF_iff]
  have hb : inBlock (centre (edgeF D) p s) s w ↔ ∀ a, 2 * ((centre (edgeF D) p s).get a - s) < w.get a ∧
      w.get a < 2 * ((centre (edgeF D) p s).get a + s) :=
    ⟨fun h a => by cases a; exacts [h.1, h.2.1, h.2.2], fun h => ⟨h .X, h .Y, h .Z⟩⟩
  rw [hb, ← forall_and]
  refine forall_congr' fun a => ?_
  rw [centre_get]
  by_cases ha : a = D
  · have : edgeF D a = true := by simp [edgeF, ha]
    rw [this, if_pos rfl]
    unfold axIn
    rw [if_pos rfl]
    constructor
    · intro h; exact ⟨by constructor <;> linarith, fun h => absurd ha h⟩
    · rintro ⟨h, -⟩; constructor <;> linarith
  · have : edgeF D a = false := by simp [edgeF, ha]
    rw [this, if_neg Bool.false_ne_true]
    unfold axIn ptCls
    rw [if_neg Bool.false_ne_true, centre_get, this, if_neg Bool.false_ne_true]
    simp only [mul_zero, add_zero]
    constructor
    · intro h; rw [h]; exact ⟨by constructor <;> linarith, fun _ => by simp⟩
    · rintro ⟨-, h⟩
      have h := h ha
      split_ifs at h <;> omega

theorem face_pieces_iff {D : Axis} {p : IVec3} {s : Int} (hs : 0 < s) {w : IVec3} :
    inF (faceF D) p (2 * s) w ↔ inBlock (centre (faceF D) p s) s w ∧ ptCls (centre (faceF D) p s) w D = 0 := by
  rw [inF_iff]
  have hb : inBlock (centre (faceF D) p s) s w ↔ ∀ a, 2 * ((centre (faceF D) p s).get a - s) < w.get a ∧
      w.get a < 2 * ((centre (faceF D) p s).get a + s) :=
    ⟨fun h a => by cases a; exacts [h.1, h.2.1, h.2.2], fun h => ⟨h .X, h .Y, h .Z⟩⟩
  have hD : ptCls (centre (faceF D) p s) w D = 0 ↔ ∀ a, a = D → ptCls (centre (faceF D) p s) w a = 0 :=
    ⟨fun h a ha => ha ▸ h, fun h => h D rfl⟩
  rw [hb, hD, ← forall_and]
  refine forall_congr' fun a => ?_
  rw [centre_get]
  by_cases ha : a = D
  · have : faceF D a = false := by simp [faceF, ha]
    rw [this, if_neg Bool.false_ne_true]
    unfold axIn ptCls
    rw [if_neg Bool.false_ne_true, centre_get, this, if_neg Bool.false_ne_true]
    simp only [mul_zero, add_zero]
    constructor
    · intro h; rw [h]; exact ⟨by constructor <;> linarith, fun _ => by simp⟩
    · rintro ⟨-, h⟩
      have h := h ha
      split_ifs at h <;> omega
  · have : faceF D a = true := by simp [faceF, ha]
    rw [this, if_pos rfl]
    unfold axIn
    rw [if_pos rfl]
    constructor
    · intro h; exact ⟨by constructor <;> linarith, fun h => absurd h ha⟩
    · rintro ⟨h, -⟩; constructor <;> linarith

theorem cell_pieces_iff {p : IVec3} {s : Int} {w : IVec3} :
    inF cellF p (2 * s) w ↔ inBlock (centre cellF p s) s w := by
  rw [inF_iff]
  have hb : inBlock (centre cellF p s) s w ↔ ∀ a, 2 * ((centre cellF p s).get a - s) < w.get a ∧
      w.get a < 2 * ((centre cellF p s).get a + s) :=
    ⟨fun h a => by cases a; exacts [h.1, h.2.1, h.2.2], fun h => ⟨h .X, h .Y, h .Z⟩⟩
  rw [hb]
  refine forall_congr' fun a => ?_
  rw [centre_get]
  unfold axIn cellF
  rw [if_pos rfl, if_pos rfl]
  constructor <;> (intro h; constructor <;> linarith)

/-- The pieces of an edge: its two halves and its middle. -/
theorem edge_split {D : Axis} {p : IVec3} {s : Int} (hs : 0 < s) {w : IVec3} (h : inF (edgeF D) p (2 * s) w) :
    Piece.vert.In (centre (edgeF D) p s) s w ∨ ∃ i, (Piece.edge D i).In (centre (edgeF D) p s) s w := by
  obtain ⟨hb, h0⟩ := (two_edge_pieces hs).1 h
  obtain ⟨pc, hpc⟩ := piece_exists hs hb
  have hc := ((piece_in_iff hs pc).1 hpc).2
  have key : ∀ pc ∈ allPieces, (∀ a ∈ [Axis.X, .Y, .Z], a ≠ D → pc.cls a = 0) → pc = .vert ∨ ∃ i, pc = .edge D i := by
    cases D <;> decide +kernel
  rcases key pc (mem_allPieces pc) (fun a _ ha => (hc a).trans (h0 a ha)) with rfl | ⟨i, rfl⟩
  · exact Or.inl hpc
  · exact Or.inr ⟨i, hpc⟩

theorem edge_join {D : Axis} {p : IVec3} {s : Int} (hs : 0 < s) {w : IVec3}
    (h : Piece.vert.In (centre (edgeF D) p s) s w ∨ ∃ i, (Piece.edge D i).In (centre (edgeF D) p s) s w) :
    inF (edgeF D) p (2 * s) w := by
  rw [two_edge_pieces hs]
  rcases h with h | ⟨i, h⟩
  · obtain ⟨hb, hc⟩ := (piece_in_iff hs _).1 h
    exact ⟨hb, fun a _ => (hc a).symm⟩
  · obtain ⟨hb, hc⟩ := (piece_in_iff hs _).1 h
    refine ⟨hb, fun a ha => ?_⟩
    rw [← hc a]
    simp [Piece.cls, ha]

theorem face_split {D : Axis} {p : IVec3} {s : Int} (hs : 0 < s) {w : IVec3} (h : inF (faceF D) p (2 * s) w) :
    Piece.vert.In (centre (faceF D) p s) s w ∨ (∃ i, (Piece.face D i).In (centre (faceF D) p s) s w) ∨
      ∃ D' i, D' ≠ D ∧ (Piece.edge D' i).In (centre (faceF D) p s) s w := by
  obtain ⟨hb, h0⟩ := (face_pieces_iff hs).1 h
  obtain ⟨pc, hpc⟩ := piece_exists hs hb
  have hc := ((piece_in_iff hs pc).1 hpc).2
  have key : ∀ pc ∈ allPieces, pc.cls D = 0 → pc = .vert ∨ (∃ i, pc = .face D i) ∨
      ∃ D' ∈ [Axis.X, .Y, .Z], ∃ i, D' ≠ D ∧ pc = .edge D' i := by
    cases D <;> decide +kernel
  rcases key pc (mem_allPieces pc) ((hc D).trans h0) with rfl | ⟨i, rfl⟩ | ⟨D', -, i, hD, rfl⟩
  · exact Or.inl hpc
  · exact Or.inr (Or.inl ⟨i, hpc⟩)
  · exact Or.inr (Or.inr ⟨D', i, hD, hpc⟩)

theorem face_join {D : Axis} {p : IVec3} {s : Int} (hs : 0 < s) {w : IVec3}
    (h : Piece.vert.In (centre (faceF D) p s) s w ∨ (∃ i, (Piece.face D i).In (centre (faceF D) p s) s w) ∨
      ∃ D' i, D' ≠ D ∧ (Piece.edge D' i).In (centre (faceF D) p s) s w) :
    inF (faceF D) p (2 * s) w := by
  rw [face_pieces_iff hs]
  rcases h with h | ⟨i, h⟩ | ⟨D', i, hD, h⟩ <;> obtain ⟨hb, hc⟩ := (piece_in_iff hs _).1 h <;> refine ⟨hb, ?_⟩ <;> rw [← hc D]
  · rfl
  · simp [Piece.cls]
  · simp [Piece.cls, hD.symm]

theorem cell_split {p : IVec3} {s : Int} (hs : 0 < s) {w : IVec3} (h : inF cellF p (2 * s) w) :
    ∃ pc : Piece, pc.In (centre cellF p s) s w := piece_exists hs (cell_pieces_iff.1 h)

theorem cell_join {p : IVec3} {s : Int} (hs : 0 < s) {w : IVec3} {pc : Piece} (h : pc.In (centre cellF p s) s w) :
    inF cellF p (2 * s) w := cell_pieces_iff.2 ((piece_in_iff hs pc).1 h).1

/-! ### Flat points -/

theorem flat_of_cubes {w : IVec3} (a : Axis) (ha : w.get a % 2 = 0)
    (h : ∀ c, Touch c w → Touch (nextCell a c) w → ∃ b : Cube, b.Has c ∧ b.Has (nextCell a c) ∧ ∃ l ∈ Lv, b.Sub l.1) :
    FlatAt Lv w :=
  ⟨a, ha, fun c h1 h2 => by
    obtain ⟨b, hb1, hb2, l, hl, hs⟩ := h c h1 h2
    exact ⟨l, hl, cubeSub_has hs hb1, cubeSub_has hs hb2⟩⟩

/-- A point inside an open cell, face or edge is flat if all nodes around are leaves. -/
theorem flat_gen {n : Nat} {f : Axis → Bool} {p : IVec3} {k : Nat} (off : Fin n → IVec3)
    (hoff : ∀ g : IVec3, (∀ b, f b = true → g.get b = 0) → (∀ b, g.get b = 0 ∨ g.get b = -1) → ∃ i, off i = g)
    {nodes : Fin n → Oct N (Cube × L)} {lo : Fin n → IVec3} (hlo : ∀ i b, (lo i).get b = p.get b + 2 ^ k * (off i).get b)
    (h : ∀ i, On (nodes i) ⟨lo i, k⟩ ∧ ∀ l ∈ (nodes i).leaves, l ∈ Lv) (hl : ∀ i, (nodes i).isLeaf = true)
    {w : IVec3} (hw : inF f p (2 ^ k) w) (he : ∃ a, f a = true ∧ w.get a % 2 = 0) : FlatAt Lv w := by
  obtain ⟨a, haf, ha⟩ := he
  rw [inF_iff] at hw
  apply flat_of_cubes a ha
  intro c h1 h2
  have hpos := two_pow_pos' k
  have hfree : ∀ b, f b = true → ∀ c', Touch c' w → p.get b ≤ c'.get b ∧ c'.get b < p.get b + 2 ^ k := by
    intro b hb c' hc'
    have e1 := hw b
    have e2 := hc' b
    unfold axIn at e1
    rw [if_pos hb] at e1
    omega
  have hfix : ∀ b, f b = false → ∀ c', Touch c' w → c'.get b = p.get b ∨ c'.get b = p.get b - 1 := by
    intro b hb c' hc'
    have e1 := hw b
    have e2 := hc' b
    unfold axIn at e1
    rw [if_neg (by simp [hb])] at e1
    omega
  let gg : Axis → Int := fun b => if f b then 0 else c.get b - p.get b
  obtain ⟨i, hi⟩ := hoff ⟨gg .X, gg .Y, gg .Z⟩
    (by intro b hb; cases b <;> simp [IVec3.get, gg, hb])
    (by
      have : ∀ b, gg b = 0 ∨ gg b = -1 := by
        intro b
        by_cases hb : f b = true
        · left; simp [gg, hb]
        · have := hfix b (by simpa using hb) c h1
          simp only [gg, hb]
          simp only [Bool.false_eq_true, if_false]
          omega
      intro b; cases b <;> exact this _)
  have hi : ∀ b, (off i).get b = gg b := by intro b; rw [hi]; cases b <;> rfl
  obtain ⟨d, hd, hs⟩ := on_leaf (h i).1 (hl i)
  have hm : d ∈ Lv := (h i).2 d (by rw [hd]; simp [Oct.leaves])
  have key : ∀ c', Touch c' w → (∀ b, f b = false → c'.get b = c.get b) → Cube.Has ⟨lo i, k⟩ c' := by
    intro c' hc' hcc
    rw [cubeHas_iff]
    intro b
    simp only [Cube.side, hlo, hi]
    by_cases hb : f b = true
    · have := hfree b hb c' hc'
      simp only [gg, hb, if_true, mul_zero, add_zero]
      exact this
    · have hb' : f b = false := by simpa using hb
      have e2 := hcc b hb'
      simp only [gg, hb', Bool.false_eq_true, if_false]
      rcases hfix b hb' c h1 with e | e
      · rw [e2, e, sub_self, mul_zero]; omega
      · rw [e2, e, show p.get b - 1 - p.get b = -1 by ring]; omega
  refine ⟨⟨lo i, k⟩, key c h1 fun _ _ => rfl, key _ h2 fun b hb => ?_, d, hm, hs⟩
  rw [nextCell_get, if_neg (by rintro rfl; rw [haf] at hb; cases hb), add_zero]

theorem flat_face {D : Axis} {p : IVec3} {k : Nat} {n : Fin 2 → Oct N (Cube × L)} (h : FaceCfg Lv D p k n)
    (hl : ∀ i, (n i).isLeaf = true) {w : IVec3} (hw : inF (faceF D) p (2 ^ k) w) (he : ∃ a, a ≠ D ∧ w.get a % 2 = 0) :
    FlatAt Lv w := by
  obtain ⟨a, ha, ha'⟩ := he
  refine flat_gen (faceOff D) ?_ (fun i b => faceCorner_get D p _ i b) h hl hw ⟨a, by simp [faceF, ha], ha'⟩
  intro g h0 h1
  have hX := h1 .X; have hY := h1 .Y; have hZ := h1 .Z
  have h0X := h0 .X; have h0Y := h0 .Y; have h0Z := h0 .Z
  cases g
  cases D <;> simp only [IVec3.get, faceF] at hX hY hZ h0X h0Y h0Z <;> simp at h0X h0Y h0Z
  · rcases hX with rfl | rfl <;> subst h0Y h0Z
    exacts [⟨1, rfl⟩, ⟨0, rfl⟩]
  · rcases hY with rfl | rfl <;> subst h0X h0Z
    exacts [⟨1, rfl⟩, ⟨0, rfl⟩]
  · rcases hZ with rfl | rfl <;> subst h0X h0Y
    exacts [⟨1, rfl⟩, ⟨0, rfl⟩]

theorem flat_edge {D : Axis} {p : IVec3} {k : Nat} {n : Fin 4 → Oct N (Cube × L)} (h : EdgeCfg Lv D p k n)
    (hl : ∀ i, (n i).isLeaf = true) {w : IVec3} (hw : inF (edgeF D) p (2 ^ k) w) (he : w.get D % 2 = 0) :
    FlatAt Lv w := by
  refine flat_gen (edgeOff D) ?_ (fun i b => edgeCorner_get D p _ i b) h hl hw ⟨D, by simp [edgeF], he⟩
  intro g h0 h1
  have hX := h1 .X; have hY := h1 .Y; have hZ := h1 .Z
  have h0X := h0 .X; have h0Y := h0 .Y; have h0Z := h0 .Z
  cases g
  cases D <;> simp only [IVec3.get, edgeF] at hX hY hZ h0X h0Y h0Z <;> simp at h0X h0Y h0Z
  · rcases hY with rfl | rfl <;> rcases hZ with rfl | rfl <;> subst h0X
    exacts [⟨2, rfl⟩, ⟨1, rfl⟩, ⟨3, rfl⟩, ⟨0, rfl⟩]
  · rcases hX with rfl | rfl <;> rcases hZ with rfl | rfl <;> subst h0Y
    exacts [⟨2, rfl⟩, ⟨3, rfl⟩, ⟨1, rfl⟩, ⟨0, rfl⟩]
  · rcases hX with rfl | rfl <;> rcases hY with rfl | rfl <;> subst h0Z
    exacts [⟨2, rfl⟩, ⟨1, rfl⟩, ⟨3, rfl⟩, ⟨0, rfl⟩]

theorem flat_cell {p : IVec3} {k : Nat} {d : Cube × L} (hp : d.1 = ⟨p, k⟩) (hd : d ∈ Lv) {w : IVec3}
    (hw : inF cellF p (2 ^ k) w) (he : ∃ a, w.get a % 2 = 0) : FlatAt Lv w := by
  obtain ⟨a, ha⟩ := he
  refine flat_gen (N := Unit) (nodes := fun _ : Fin 1 => Oct.leaf d) (lo := fun _ => p) (fun _ : Fin 1 => ⟨0, 0, 0⟩) ?_ ?_ ?_ (fun _ => rfl) hw
    ⟨a, rfl, ha⟩
  · intro g h0 _
    refine ⟨0, ?_⟩
    apply ivec_ext
    intro b
    rw [h0 b rfl]
    cases b <;> rfl
  · intro i b; cases b <;> simp [IVec3.get]
  · intro i
    exact ⟨Or.inl hp, fun l hl => by simp [Oct.leaves] at hl; exact hl ▸ hd⟩

end
end Isomesh
