import Verif.Spec.Octree
import Mathlib.Tactic.LinearCombination
import Mathlib.Tactic.Positivity

/-! Helper lemmas for the octree traversals (C21, C51).

Points of interest are lattice edges and vertices in doubled coordinates: the midpoint of the unit edge from `u` along
`D` is `2 u + e_D`. -/

namespace Isomesh
open Spec

/-! ### Cubes -/

theorem side_pos (c : Cube) : 0 < c.side := by unfold Cube.side; positivity

theorem two_pow_pos' (k : Nat) : (0 : Int) < 2 ^ k := by positivity

theorem two_pow_succ' (k : Nat) : (2 : Int) ^ (k + 1) = 2 * 2 ^ k := by rw [pow_succ, mul_comm]

theorem cubeSub_refl (a : Cube) : a.Sub a := by unfold Cube.Sub; omega

theorem cubeSub_trans {a b c : Cube} (h : a.Sub b) (h' : b.Sub c) : a.Sub c := by unfold Cube.Sub at *; omega

theorem octOff_01 (i : Fin 8) (a : Axis) : (octOff i).get a = 0 ∨ (octOff i).get a = 1 := by
  cases a <;> revert i <;> decide

theorem octant_sub {o : IVec3} {k : Nat} (i : Fin 8) : Cube.Sub ⟨octCorner o (2 ^ k) i, k⟩ ⟨o, k + 1⟩ := by
  have h1 := two_pow_succ' k
  have h2 := two_pow_pos' k
  simp only [Cube.Sub, Cube.side, octCorner, h1]
  generalize (2 : Int) ^ k = s at *
  have hx := octOff_01 i .X
  have hy := octOff_01 i .Y
  have hz := octOff_01 i .Z
  simp only [IVec3.get] at hx hy hz
  refine ⟨?_, ?_, ?_⟩
  · rcases hx with h | h <;> rw [h] <;> omega
  · rcases hy with h | h <;> rw [h] <;> omega
  · rcases hz with h | h <;> rw [h] <;> omega

/-! ### Placed octrees -/

section
variable {N L : Type}

/-- Every leaf of the tree carries the cube that it occupies if the tree occupies the cube `c`. -/
def Placed : Oct N (Cube × L) → Cube → Prop
  | .leaf d, c => d.1 = c
  | .inner _ ch, c => 0 < c.k ∧ ∀ i, Placed (ch i) (c.octant i)

/-- The node occupies the cube `c` or is a leaf occupying a larger one. -/
def On (n : Oct N (Cube × L)) (c : Cube) : Prop := Placed n c ∨ ∃ d, n = .leaf d ∧ c.Sub d.1

theorem placed_locate (t : Oct N L) (c : Cube) (h : t.height ≤ c.k) : Placed (locate t c) c := by
  induction t generalizing c with
  | leaf d => rfl
  | inner d ch ih =>
    simp only [Oct.height] at h
    refine ⟨by omega, fun i => ih i _ ?_⟩
    have := Finset.le_sup (f := fun i => (ch i).height) (Finset.mem_univ i)
    simp only [Cube.octant]
    omega

theorem on_sub {n : Oct N (Cube × L)} {o : IVec3} {k : Nat} (h : On n ⟨o, k + 1⟩) (i : Fin 8) :
    On (n.sub i) ⟨octCorner o (2 ^ k) i, k⟩ := by
  rcases h with h | ⟨d, rfl, h⟩
  · cases n with
    | leaf d =>
      right
      refine ⟨d, rfl, ?_⟩
      have h' : d.1 = _ := h
      rw [h']
      exact octant_sub i
    | inner d ch => exact Or.inl (h.2 i)
  · exact Or.inr ⟨d, rfl, cubeSub_trans (octant_sub i) h⟩

theorem placed_of_inner {n : Oct N (Cube × L)} {c : Cube} (h : On n c) (hn : n.isLeaf = false) : Placed n c := by
  rcases h with h | ⟨d, rfl, -⟩
  · exact h
  · cases hn

theorem placed_sub {n : Oct N (Cube × L)} {o : IVec3} {k : Nat} (h : Placed n ⟨o, k + 1⟩) (hn : n.isLeaf = false) (i : Fin 8) :
    Placed (n.sub i) ⟨octCorner o (2 ^ k) i, k⟩ := by
  cases n with
  | leaf d => cases hn
  | inner d ch => exact h.2 i

theorem k_pos_of_inner {n : Oct N (Cube × L)} {c : Cube} (h : On n c) (hn : n.isLeaf = false) : 0 < c.k := by
  have := placed_of_inner h hn
  cases n with
  | leaf d => cases hn
  | inner d ch => exact this.1

theorem mem_leaves_sub {n : Oct N (Cube × L)} {i : Fin 8} {l : Cube × L} (h : l ∈ (n.sub i).leaves) : l ∈ n.leaves := by
  cases n with
  | leaf d => exact h
  | inner d ch => exact List.mem_flatMap.2 ⟨i, List.mem_finRange i, h⟩

theorem on_leaf {n : Oct N (Cube × L)} {c : Cube} (h : On n c) (hn : n.isLeaf = true) :
    ∃ d, n = .leaf d ∧ c.Sub d.1 := by
  rcases h with h | h
  · cases n with
    | leaf d =>
      have h' : d.1 = c := h
      exact ⟨d, rfl, h' ▸ cubeSub_refl _⟩
    | inner d ch => cases hn
  · exact h

/-! ### Regions in doubled coordinates -/

/-- One axis of a region: the open interval `(2p, 2p + 2s)` or the point `2p`. -/
def axIn (free : Bool) (p w s : Int) : Prop := if free = true then 2 * p < w ∧ w < 2 * p + 2 * s else w = 2 * p

instance (free : Bool) (p w s : Int) : Decidable (axIn free p w s) := by unfold axIn; infer_instance

/-- An open cell, face or edge, or a point: free axes, lower corner, size. -/
def inF (f : Axis → Bool) (p : IVec3) (s : Int) (w : IVec3) : Prop :=
  axIn (f .X) p.x w.x s ∧ axIn (f .Y) p.y w.y s ∧ axIn (f .Z) p.z w.z s

instance (f : Axis → Bool) (p : IVec3) (s : Int) (w : IVec3) : Decidable (inF f p s w) := by unfold inF; infer_instance

/-- Free axes of an edge along `D`. -/
def edgeF (D : Axis) : Axis → Bool := fun a => decide (a = D)
/-- Free axes of a face orthogonal to `D`. -/
def faceF (D : Axis) : Axis → Bool := fun a => decide (a ≠ D)
/-- Free axes of a cell. -/
def cellF : Axis → Bool := fun _ => true
/-- Free axes of a vertex. -/
def vertF : Axis → Bool := fun _ => false

/-- Positions of the two cubes at the sides of a face. -/
def faceOff : Axis → Fin 2 → IVec3
  | .X => ![⟨-1, 0, 0⟩, ⟨0, 0, 0⟩]
  | .Y => ![⟨0, -1, 0⟩, ⟨0, 0, 0⟩]
  | .Z => ![⟨0, 0, -1⟩, ⟨0, 0, 0⟩]

/-- Lower corners of the two cubes at the sides of a face. -/
def faceCorner (D : Axis) (p : IVec3) (s : Int) (i : Fin 2) : IVec3 :=
  ⟨p.x + s * (faceOff D i).x, p.y + s * (faceOff D i).y, p.z + s * (faceOff D i).z⟩

/-- Centre of an edge, face, cell of side `2 s`. -/
def centre (f : Axis → Bool) (p : IVec3) (s : Int) : IVec3 :=
  ⟨if f .X then p.x + s else p.x, if f .Y then p.y + s else p.y, if f .Z then p.z + s else p.z⟩

/-- The pieces into which the neighbourhood of a block centre is divided. -/
inductive Piece where
  | cell (i : Fin 8)
  | face (D : Axis) (i : Fin 4)
  | edge (D : Axis) (i : Fin 2)
  | vert
  deriving DecidableEq

/-- Region of a piece of the block around `m` with cubes of side `s`. -/
def Piece.In (m : IVec3) (s : Int) (w : IVec3) : Piece → Prop
  | .cell i => inF cellF (vertCorner m s i) s w
  | .face D i => inF (faceF D) (vertCorner m s (dcFaceTable D i 1)) s w
  | .edge D i => inF (edgeF D) (vertCorner m s (dcEdgeTable D i 2)) s w
  | .vert => inF vertF m s w

/-- Position of a piece along an axis relative to the centre. -/
def Piece.cls : Piece → Axis → Int
  | .cell i, a => 2 * (octOff i).get a - 1
  | .face D i, a => if a = D then 0 else 2 * (octOff (dcFaceTable D i 1)).get a - 1
  | .edge D i, a => if a = D then 2 * (octOff (dcEdgeTable D i 2)).get a - 1 else 0
  | .vert, _ => 0

/-- Position of a point along an axis relative to the centre. -/
def ptCls (m w : IVec3) (a : Axis) : Int := if w.get a < 2 * m.get a then -1 else if w.get a = 2 * m.get a then 0 else 1

/-- The open cube of side `2 s` around the centre. -/
def inBlock (m : IVec3) (s : Int) (w : IVec3) : Prop :=
  (2 * (m.x - s) < w.x ∧ w.x < 2 * (m.x + s)) ∧ (2 * (m.y - s) < w.y ∧ w.y < 2 * (m.y + s)) ∧
  (2 * (m.z - s) < w.z ∧ w.z < 2 * (m.z + s))

theorem axIn_lo {m w s : Int} (hs : 0 < s) : axIn true (m - s) w s ↔
    (2 * (m - s) < w ∧ w < 2 * (m + s)) ∧ (if w < 2 * m then -1 else if w = 2 * m then 0 else 1 : Int) = -1 := by
  unfold axIn; rw [if_pos rfl]
  rcases lt_trichotomy w (2 * m) with h | h | h
  · rw [if_pos h]; omega
  · rw [if_neg (by omega), if_pos h]; omega
  · rw [if_neg (by omega), if_neg (by omega)]; omega

theorem axIn_hi {m w s : Int} (hs : 0 < s) : axIn true m w s ↔
    (2 * (m - s) < w ∧ w < 2 * (m + s)) ∧ (if w < 2 * m then -1 else if w = 2 * m then 0 else 1 : Int) = 1 := by
  unfold axIn; rw [if_pos rfl]
  rcases lt_trichotomy w (2 * m) with h | h | h
  · rw [if_pos h]; omega
  · rw [if_neg (by omega), if_pos h]; omega
  · rw [if_neg (by omega), if_neg (by omega)]; omega

theorem axIn_mid {m w s : Int} (hs : 0 < s) : axIn false m w s ↔
    (2 * (m - s) < w ∧ w < 2 * (m + s)) ∧ (if w < 2 * m then -1 else if w = 2 * m then 0 else 1 : Int) = 0 := by
  unfold axIn; rw [if_neg Bool.false_ne_true]
  rcases lt_trichotomy w (2 * m) with h | h | h
  · rw [if_pos h]; omega
  · rw [if_neg (by omega), if_pos h]; omega
  · rw [if_neg (by omega), if_neg (by omega)]; omega

theorem piece_in_iff {m w : IVec3} {s : Int} (hs : 0 < s) (pc : Piece) :
    pc.In m s w ↔ inBlock m s w ∧ ∀ a, pc.cls a = ptCls m w a := by
  have hA : ∀ Q : Axis → Prop, (∀ a, Q a) ↔ Q .X ∧ Q .Y ∧ Q .Z :=
    fun Q => ⟨fun h => ⟨h _, h _, h _⟩, fun h a => by cases a; exacts [h.1, h.2.1, h.2.2]⟩
  have key : ∀ (f : Axis → Bool) (p : IVec3) (c : Axis → Int),
      (∀ a, (f a = true ∧ p.get a = m.get a - s ∧ c a = -1) ∨ (f a = true ∧ p.get a = m.get a ∧ c a = 1) ∨
        (f a = false ∧ p.get a = m.get a ∧ c a = 0)) →
      (inF f p s w ↔ inBlock m s w ∧ ∀ a, c a = ptCls m w a) := by
    intro f p c h
    have e : ∀ a, axIn (f a) (p.get a) (w.get a) s ↔
        (2 * (m.get a - s) < w.get a ∧ w.get a < 2 * (m.get a + s)) ∧ c a = ptCls m w a := by
      intro a
      unfold ptCls
      rcases h a with ⟨h1, h2, h3⟩ | ⟨h1, h2, h3⟩ | ⟨h1, h2, h3⟩ <;> rw [h1, h2, h3]
      · rw [axIn_lo hs, eq_comm (a := (-1 : Int))]
      · rw [axIn_hi hs, eq_comm (a := (1 : Int))]
      · rw [axIn_mid hs, eq_comm (a := (0 : Int))]
    have eX := e .X; have eY := e .Y; have eZ := e .Z
    simp only [IVec3.get] at eX eY eZ
    unfold inF
    rw [eX, eY, eZ, hA]
    unfold inBlock
    tauto
  have hv : ∀ (i : Fin 8) (a : Axis), (vertCorner m s i).get a = m.get a - s + s * (octOff i).get a := by
    intro i a; cases a <;> rfl
  have hv01 : ∀ (i : Fin 8) (a : Axis), ((vertCorner m s i).get a = m.get a - s ∧ 2 * (octOff i).get a - 1 = -1) ∨
      ((vertCorner m s i).get a = m.get a ∧ 2 * (octOff i).get a - 1 = 1) := by
    intro i a
    rw [hv]
    rcases octOff_01 i a with h | h <;> rw [h]
    · left; constructor <;> ring
    · right; constructor <;> ring
  cases pc with
  | cell i =>
    refine key _ _ _ fun a => ?_
    rcases hv01 i a with ⟨h1, h2⟩ | ⟨h1, h2⟩
    · exact Or.inl ⟨rfl, h1, h2⟩
    · exact Or.inr (Or.inl ⟨rfl, h1, h2⟩)
  | face D i =>
    refine key _ _ _ fun a => ?_
    by_cases ha : a = D
    · subst ha
      refine Or.inr (Or.inr ⟨by simp [faceF], ?_, by simp [Piece.cls]⟩)
      rw [hv, show (octOff (dcFaceTable a i 1)).get a = 1 by cases a <;> revert i <;> decide]
      ring
    · have hf : faceF D a = true := by simp [faceF, ha]
      simp only [Piece.cls, if_neg ha]
      rcases hv01 (dcFaceTable D i 1) a with ⟨h1, h2⟩ | ⟨h1, h2⟩
      · exact Or.inl ⟨hf, h1, h2⟩
      · exact Or.inr (Or.inl ⟨hf, h1, h2⟩)
  | edge D i =>
    refine key _ _ _ fun a => ?_
    by_cases ha : a = D
    · have hf : edgeF D a = true := by simp [edgeF, ha]
      simp only [Piece.cls, if_pos ha]
      rcases hv01 (dcEdgeTable D i 2) a with ⟨h1, h2⟩ | ⟨h1, h2⟩
      · exact Or.inl ⟨hf, h1, h2⟩
      · exact Or.inr (Or.inl ⟨hf, h1, h2⟩)
    · refine Or.inr (Or.inr ⟨by simp [edgeF, ha], ?_, by simp [Piece.cls, ha]⟩)
      rw [hv, show (octOff (dcEdgeTable D i 2)).get a = 1 by cases D <;> cases a <;> first | exact absurd rfl ha | (revert i; decide)]
      ring
  | vert => exact key _ _ _ fun a => Or.inr (Or.inr ⟨rfl, rfl, rfl⟩)

/-- All pieces. -/
def allPieces : List Piece :=
  (List.finRange 8).map .cell ++ [Axis.X, .Y, .Z].flatMap (fun D => (List.finRange 4).map (.face D)) ++
  [Axis.X, .Y, .Z].flatMap (fun D => (List.finRange 2).map (.edge D)) ++ [.vert]

theorem mem_allPieces (pc : Piece) : pc ∈ allPieces := by
  cases pc with
  | cell i => revert i; decide
  | face D i => cases D <;> revert i <;> decide
  | edge D i => cases D <;> revert i <;> decide
  | vert => decide

theorem cls_injective : ∀ a ∈ allPieces, ∀ b ∈ allPieces,
    (a.cls .X = b.cls .X ∧ a.cls .Y = b.cls .Y ∧ a.cls .Z = b.cls .Z) → a = b := by decide +kernel

theorem cls_surjective : ∀ x ∈ [(-1 : Int), 0, 1], ∀ y ∈ [(-1 : Int), 0, 1], ∀ z ∈ [(-1 : Int), 0, 1],
    ∃ a ∈ allPieces, a.cls .X = x ∧ a.cls .Y = y ∧ a.cls .Z = z := by decide +kernel

theorem piece_unique {m w : IVec3} {s : Int} (hs : 0 < s) {a b : Piece} (ha : a.In m s w) (hb : b.In m s w) : a = b := by
  rw [piece_in_iff hs] at ha hb
  exact cls_injective a (mem_allPieces a) b (mem_allPieces b) ⟨(ha.2 _).trans (hb.2 _).symm, (ha.2 _).trans (hb.2 _).symm,
    (ha.2 _).trans (hb.2 _).symm⟩

theorem ptCls_mem (m w : IVec3) (a : Axis) : ptCls m w a ∈ [(-1 : Int), 0, 1] := by
  unfold ptCls; split_ifs <;> simp

theorem piece_exists {m w : IVec3} {s : Int} (hs : 0 < s) (h : inBlock m s w) : ∃ pc : Piece, pc.In m s w := by
  obtain ⟨a, -, h1, h2, h3⟩ := cls_surjective _ (ptCls_mem m w .X) _ (ptCls_mem m w .Y) _ (ptCls_mem m w .Z)
  exact ⟨a, (piece_in_iff hs a).2 ⟨h, fun x => by cases x; exacts [h1, h2, h3]⟩⟩

/-- Counting over the pieces of a block: only the piece that contains the point contributes. -/
theorem block_count {α : Type} (cov : α → Bool) {m w : IVec3} {s : Int} (hs : 0 < s) (PL : List Piece) (nd : PL.Nodup)
    (A : Piece → List α) (hout : ∀ pc ∈ PL, ¬ pc.In m s w → (A pc).countP cov = 0) :
    (∀ pc ∈ PL, pc.In m s w → (PL.flatMap A).countP cov = (A pc).countP cov) ∧
    ((∀ pc ∈ PL, ¬ pc.In m s w) → (PL.flatMap A).countP cov = 0) := by
  induction PL with
  | nil => simp
  | cons a PL ih =>
    obtain ⟨hn, nd⟩ := List.nodup_cons.1 nd
    obtain ⟨ih1, ih2⟩ := ih nd (fun pc h => hout pc (List.mem_cons_of_mem _ h))
    constructor
    · intro pc hpc hin
      rw [List.flatMap_cons, List.countP_append]
      rcases List.mem_cons.1 hpc with rfl | hpc
      · rw [ih2, add_zero]
        intro b hb hbin
        exact hn (piece_unique hs hin hbin ▸ hb)
      · rw [hout a List.mem_cons_self, zero_add, ih1 pc hpc hin]
        intro ha
        exact hn (piece_unique hs ha hin ▸ hpc)
    · intro h
      rw [List.flatMap_cons, List.countP_append, hout a List.mem_cons_self (h a List.mem_cons_self),
        ih2 (fun pc hpc => h pc (List.mem_cons_of_mem _ hpc))]

/-! ### Configurations -/

variable (Lv : List (Cube × L))

/-- A block of eight nodes around the point `m`. -/
def Block (m : IVec3) (k : Nat) (b : Fin 8 → Oct N (Cube × L)) : Prop :=
  ∀ i, On (b i) ⟨vertCorner m (2 ^ k) i, k⟩ ∧ ∀ l ∈ (b i).leaves, l ∈ Lv

/-- Four nodes around a segment. -/
def EdgeCfg (D : Axis) (p : IVec3) (k : Nat) (n : Fin 4 → Oct N (Cube × L)) : Prop :=
  ∀ i, On (n i) ⟨edgeCorner D p (2 ^ k) i, k⟩ ∧ ∀ l ∈ (n i).leaves, l ∈ Lv

/-- Two nodes at the sides of a face. -/
def FaceCfg (D : Axis) (p : IVec3) (k : Nat) (n : Fin 2 → Oct N (Cube × L)) : Prop :=
  ∀ i, On (n i) ⟨faceCorner D p (2 ^ k) i, k⟩ ∧ ∀ l ∈ (n i).leaves, l ∈ Lv

theorem ivec_ext {a b : IVec3} (h : ∀ x, a.get x = b.get x) : a = b := by
  have hx := h .X
  have hy := h .Y
  have hz := h .Z
  cases a; cases b
  simp only [IVec3.get] at hx hy hz
  subst hx hy hz
  rfl

theorem edgeCorner_get (D : Axis) (p : IVec3) (s : Int) (i : Fin 4) (a : Axis) :
    (edgeCorner D p s i).get a = p.get a + s * (edgeOff D i).get a := by cases a <;> rfl

theorem faceCorner_get (D : Axis) (p : IVec3) (s : Int) (i : Fin 2) (a : Axis) :
    (faceCorner D p s i).get a = p.get a + s * (faceOff D i).get a := by cases a <;> rfl

theorem octCorner_get (p : IVec3) (s : Int) (i : Fin 8) (a : Axis) :
    (octCorner p s i).get a = p.get a + s * (octOff i).get a := by cases a <;> rfl

theorem vertCorner_get (p : IVec3) (s : Int) (i : Fin 8) (a : Axis) :
    (vertCorner p s i).get a = p.get a - s + s * (octOff i).get a := by cases a <;> rfl

theorem centre_get (f : Axis → Bool) (p : IVec3) (s : Int) (a : Axis) :
    (centre f p s).get a = p.get a + s * (if f a then 1 else 0) := by
  cases a <;> simp only [centre, IVec3.get] <;> split <;> simp

theorem edge_corner_block (D : Axis) (m : IVec3) (s : Int) (i : Fin 2) (c : Fin 4) :
    edgeCorner D (vertCorner m s (dcEdgeTable D i 2)) s c = vertCorner m s (dcEdgeTable D i c) := by
  have h : ∀ a, (octOff (dcEdgeTable D i 2)).get a + (edgeOff D c).get a = (octOff (dcEdgeTable D i c)).get a := by
    intro a; revert i c; cases D <;> cases a <;> decide
  apply ivec_ext
  intro a
  rw [edgeCorner_get, vertCorner_get, vertCorner_get]
  linear_combination s * h a

theorem face_corner_block (D : Axis) (m : IVec3) (s : Int) (i : Fin 4) (c : Fin 2) :
    faceCorner D (vertCorner m s (dcFaceTable D i 1)) s c = vertCorner m s (dcFaceTable D i c) := by
  have h : ∀ a, (octOff (dcFaceTable D i 1)).get a + (faceOff D c).get a = (octOff (dcFaceTable D i c)).get a := by
    intro a; revert i c; cases D <;> cases a <;> decide
  apply ivec_ext
  intro a
  rw [faceCorner_get, vertCorner_get, vertCorner_get]
  linear_combination s * h a

theorem edge_child_corner (D : Axis) (p : IVec3) (s : Int) (j : Fin 8) :
    octCorner (edgeCorner D p (2 * s) (dcEdgeSubTable D j).1) s (dcEdgeSubTable D j).2 =
      vertCorner (centre (edgeF D) p s) s j := by
  have h : ∀ a, 2 * (edgeOff D (dcEdgeSubTable D j).1).get a + (octOff (dcEdgeSubTable D j).2).get a =
      (if edgeF D a then 1 else 0) - 1 + (octOff j).get a := by
    intro a; revert j; cases D <;> cases a <;> decide
  apply ivec_ext
  intro a
  rw [octCorner_get, edgeCorner_get, vertCorner_get, centre_get]
  linear_combination s * h a

theorem face_child_corner (D : Axis) (p : IVec3) (s : Int) (j : Fin 8) :
    octCorner (faceCorner D p (2 * s) (dcFaceSubTable D j).1) s (dcFaceSubTable D j).2 =
      vertCorner (centre (faceF D) p s) s j := by
  have h : ∀ a, 2 * (faceOff D (dcFaceSubTable D j).1).get a + (octOff (dcFaceSubTable D j).2).get a =
      (if faceF D a then 1 else 0) - 1 + (octOff j).get a := by
    intro a; revert j; cases D <;> cases a <;> decide
  apply ivec_ext
  intro a
  rw [octCorner_get, faceCorner_get, vertCorner_get, centre_get]
  linear_combination s * h a

theorem cell_child_corner (p : IVec3) (s : Int) (j : Fin 8) :
    octCorner p s j = vertCorner (centre cellF p s) s j := by
  apply ivec_ext
  intro a
  rw [octCorner_get, vertCorner_get, centre_get]
  simp [cellF]

theorem vert_child_corner (p : IVec3) (s : Int) (j : Fin 8) :
    octCorner (vertCorner p (2 * s) j) s (7 - j) = vertCorner p s j := by
  have h : ∀ a, (octOff j).get a + (octOff (7 - j)).get a = 1 := by
    intro a; revert j; cases a <;> decide
  apply ivec_ext
  intro a
  rw [octCorner_get, vertCorner_get, vertCorner_get]
  linear_combination s * h a

variable {Lv}

theorem EdgeCfg.block {D : Axis} {p : IVec3} {k : Nat} {n : Fin 4 → Oct N (Cube × L)} (h : EdgeCfg Lv D p (k + 1) n) :
    Block Lv (centre (edgeF D) p (2 ^ k)) k (dcTrav.edgeBlock D n) := by
  intro j
  obtain ⟨h1, h2⟩ := h (dcEdgeSubTable D j).1
  rw [two_pow_succ'] at h1
  have := on_sub h1 (dcEdgeSubTable D j).2
  rw [edge_child_corner] at this
  exact ⟨this, fun l hl => h2 l (mem_leaves_sub hl)⟩

theorem FaceCfg.block {D : Axis} {p : IVec3} {k : Nat} {n : Fin 2 → Oct N (Cube × L)} (h : FaceCfg Lv D p (k + 1) n) :
    Block Lv (centre (faceF D) p (2 ^ k)) k (dcTrav.faceBlock D n) := by
  intro j
  obtain ⟨h1, h2⟩ := h (dcFaceSubTable D j).1
  rw [two_pow_succ'] at h1
  have := on_sub h1 (dcFaceSubTable D j).2
  rw [face_child_corner] at this
  exact ⟨this, fun l hl => h2 l (mem_leaves_sub hl)⟩

theorem Block.edgeCfg {m : IVec3} {k : Nat} {b : Fin 8 → Oct N (Cube × L)} (h : Block Lv m k b) (D : Axis) (i : Fin 2) :
    EdgeCfg Lv D (vertCorner m (2 ^ k) (dcEdgeTable D i 2)) k (fun c => b (dcEdgeTable D i c)) := by
  intro c
  rw [edge_corner_block]
  exact h _

theorem Block.faceCfg {m : IVec3} {k : Nat} {b : Fin 8 → Oct N (Cube × L)} (h : Block Lv m k b) (D : Axis) (i : Fin 4) :
    FaceCfg Lv D (vertCorner m (2 ^ k) (dcFaceTable D i 1)) k (fun c => b (dcFaceTable D i c)) := by
  intro c
  rw [face_corner_block]
  exact h _

end
end Isomesh
