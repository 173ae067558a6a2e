import Verif.Props.McOrient
import Verif.Proofs.MultiAffine

/-! Volume under the marching cubes triangles of one cell: bounds for all 256 patterns and all positions of the vertices.

Volumes and areas are polynomials in the positions of the vertices on their edges, of degree at most one in each of them; so such a
polynomial is not negative on the whole cube if it is not negative where all positions are 0 or 1.  This is checked by the kernel. -/

namespace Isomesh
open Spec

variable {K : Type} [Field K] [LinearOrder K] [IsStrictOrderedRing K]

/-! ### The polynomials of a cell -/

/-- Coordinate `a` of the vertex on edge `i`. -/
def coordP (a : Axis) (i : Nat) : List Mono :=
  if slotAxis i = a then pvar i else if (slotOff i).get a = 1 then pconst 1 else []

def prodP (a b c : Axis) (t : Nat × Nat × Nat) : List Mono := pmul (coordP a t.1) (pmul (coordP b t.2.1) (coordP c t.2.2))

/-- Six times the volume of the tetrahedron of a triangle and the lower corner of the cell. -/
def detP (t : Nat × Nat × Nat) : List Mono :=
  (prodP .X .Y .Z t ++ pneg (prodP .X .Z .Y t)) ++ (prodP .Y .Z .X t ++ pneg (prodP .Y .X .Z t)) ++ (prodP .Z .X .Y t ++ pneg (prodP .Z .Y .X t))

def crossP (a b : Axis) (i j : Nat) : List Mono := pmul (coordP a i) (coordP b j) ++ pneg (pmul (coordP b i) (coordP a j))

/-- Twice the area of the projection of a triangle. -/
def areaP (a b : Axis) (t : Nat × Nat × Nat) : List Mono := crossP a b t.1 t.2.1 ++ crossP a b t.2.1 t.2.2 ++ crossP a b t.2.2 t.1

/-- Twice the solid area of a face with corners `00, 10, 01, 11` and edges bottom, top, left, right; the solid corners of a face with two
opposite ones are not connected. -/
def faceArea (s00 s10 s01 s11 : Bool) (p q r w : K) : K :=
  match s00, s10, s01, s11 with
  | false, false, false, false => 0
  | true, false, false, false => p * r
  | false, true, false, false => (1 - p) * w
  | true, true, false, false => r + w
  | false, false, true, false => q * (1 - r)
  | true, false, true, false => p + q
  | false, true, true, false => (1 - p) * w + q * (1 - r)
  | true, true, true, false => 2 - (1 - q) * (1 - w)
  | false, false, false, true => (1 - q) * (1 - w)
  | true, false, false, true => p * r + (1 - q) * (1 - w)
  | false, true, false, true => (1 - p) + (1 - q)
  | true, true, false, true => 2 - q * (1 - r)
  | false, false, true, true => (1 - r) + (1 - w)
  | true, false, true, true => 2 - (1 - p) * w
  | false, true, true, true => 2 - p * r
  | true, true, true, true => 2

/-- `1 - t`. -/
def pcomp (i : Nat) : List Mono := pconst 1 ++ pneg (pvar i)

def facePoly (s00 s10 s01 s11 : Bool) (p q r w : Nat) : List Mono :=
  match s00, s10, s01, s11 with
  | false, false, false, false => []
  | true, false, false, false => pmul (pvar p) (pvar r)
  | false, true, false, false => pmul (pcomp p) (pvar w)
  | true, true, false, false => pvar r ++ pvar w
  | false, false, true, false => pmul (pvar q) (pcomp r)
  | true, false, true, false => pvar p ++ pvar q
  | false, true, true, false => pmul (pcomp p) (pvar w) ++ pmul (pvar q) (pcomp r)
  | true, true, true, false => pconst 2 ++ pneg (pmul (pcomp q) (pcomp w))
  | false, false, false, true => pmul (pcomp q) (pcomp w)
  | true, false, false, true => pmul (pvar p) (pvar r) ++ pmul (pcomp q) (pcomp w)
  | false, true, false, true => pcomp p ++ pcomp q
  | true, true, false, true => pconst 2 ++ pneg (pmul (pvar q) (pcomp r))
  | false, false, true, true => pcomp r ++ pcomp w
  | true, false, true, true => pconst 2 ++ pneg (pmul (pcomp p) (pvar w))
  | false, true, true, true => pconst 2 ++ pneg (pmul (pvar p) (pvar r))
  | true, true, true, true => pconst 2

theorem eval_facePoly (t : Nat → K) (s00 s10 s01 s11 : Bool) (p q r w : Nat) :
    evalPoly t (facePoly s00 s10 s01 s11 p q r w) = faceArea s00 s10 s01 s11 (t p) (t q) (t r) (t w) := by
  cases s00 <;> cases s10 <;> cases s01 <;> cases s11 <;>
    simp only [facePoly, faceArea, pcomp, eval_append, eval_mul, eval_neg, eval_var, eval_const, eval_nil, Int.cast_one, Int.cast_ofNat] <;> ring

/-- The face of pattern `m` at the lower or upper end of an axis. -/
def faceP (m : Nat) : Axis → Bool → List Mono
  | .X, false => facePoly (solid m 0) (solid m 4) (solid m 1) (solid m 5) 4 5 8 10
  | .X, true => facePoly (solid m 2) (solid m 6) (solid m 3) (solid m 7) 6 7 9 11
  | .Y, false => facePoly (solid m 0) (solid m 2) (solid m 1) (solid m 3) 0 1 8 9
  | .Y, true => facePoly (solid m 4) (solid m 6) (solid m 5) (solid m 7) 2 3 10 11
  | .Z, false => facePoly (solid m 0) (solid m 2) (solid m 4) (solid m 6) 0 2 4 6
  | .Z, true => facePoly (solid m 1) (solid m 3) (solid m 5) (solid m 7) 1 3 5 7

/-- Six times the volume of the solid part of a cell. -/
def volP (m : Nat) : List Mono := (mcTriangles m).flatMap detP ++ (faceP m .X true ++ faceP m .Y true ++ faceP m .Z true)

/-- The projections of the triangles and of the two faces orthogonal to an axis. -/
def balP (m : Nat) (a b c : Axis) : List Mono := (mcTriangles m).flatMap (areaP b c) ++ (faceP m a true ++ pneg (faceP m a false))

def crossList (m : Nat) : List Nat := (List.range 12).filter (Spec.crosses m)

def checkCell (m : Nat) : Bool :=
  (norm (volP m)).all (fun n => decide n.1.Nodup) && (norm (pconst 6 ++ pneg (volP m))).all (fun n => decide n.1.Nodup) &&
  nonneg (crossList m) (norm (volP m)) && nonneg (crossList m) (norm (pconst 6 ++ pneg (volP m))) &&
  (norm (balP m .X .Y .Z)).isEmpty && (norm (balP m .Y .Z .X)).isEmpty && (norm (balP m .Z .X .Y)).isEmpty

def checkCells (lo n : Nat) : Bool := (List.range n).all fun k => checkCell (lo + k)

theorem checkCells_0 : checkCells 0 64 = true := by decide +kernel
theorem checkCells_1 : checkCells 64 64 = true := by decide +kernel
theorem checkCells_2 : checkCells 128 64 = true := by decide +kernel
theorem checkCells_3 : checkCells 192 64 = true := by decide +kernel

theorem checkCell_true {m : Nat} (hm : m < 256) : checkCell m = true := by
  have key : ∀ lo, checkCells lo 64 = true → lo ≤ m → m < lo + 64 → checkCell m = true := by
    intro lo h h1 h2
    have := List.all_eq_true.mp h (m - lo) (List.mem_range.mpr (by omega))
    rwa [show lo + (m - lo) = m by omega] at this
  have hc : m < 64 ∨ (64 ≤ m ∧ m < 128) ∨ (128 ≤ m ∧ m < 192) ∨ 192 ≤ m := by omega
  rcases hc with h | h | h | h
  · exact key 0 checkCells_0 (by omega) (by omega)
  · exact key 64 checkCells_1 (by omega) (by omega)
  · exact key 128 checkCells_2 (by omega) (by omega)
  · exact key 192 checkCells_3 (by omega) (by omega)

/-- The solid part of a cell has a volume between 0 and 1. -/
theorem cell_volume {m : Nat} (hm : m < 256) {t : Nat → K} (ht : ∀ i, 0 ≤ t i ∧ t i ≤ 1) : 0 ≤ evalPoly t (volP m) ∧ evalPoly t (volP m) ≤ 6 := by
  have h := checkCell_true hm
  simp only [checkCell, Bool.and_eq_true, List.all_eq_true, decide_eq_true_eq] at h
  obtain ⟨⟨⟨⟨⟨⟨h1, h2⟩, h3⟩, h4⟩, -⟩, -⟩, -⟩ := h
  have k1 := nonneg_sound ht _ _ h1 h3
  have k2 := nonneg_sound ht _ _ h2 h4
  rw [eval_norm] at k1 k2
  rw [eval_append, eval_const, eval_neg] at k2
  push_cast at k2
  exact ⟨k1, by linarith⟩

theorem eval_empty {t : Nat → K} {p : List Mono} (h : (norm p).isEmpty = true) : evalPoly t p = 0 := by
  rw [← eval_norm, List.isEmpty_iff.mp h]
  rfl

/-- The projection of the triangles is the difference of the faces. -/
theorem cell_balance {m : Nat} (hm : m < 256) (t : Nat → K) :
    evalPoly t (balP m .X .Y .Z) = 0 ∧ evalPoly t (balP m .Y .Z .X) = 0 ∧ evalPoly t (balP m .Z .X .Y) = 0 := by
  have h := checkCell_true hm
  simp only [checkCell, Bool.and_eq_true] at h
  obtain ⟨⟨⟨-, h1⟩, h2⟩, h3⟩ := h
  exact ⟨eval_empty h1, eval_empty h2, eval_empty h3⟩

theorem eval_coordP (t : Nat → K) {i : Nat} (hi : i < 12) (a : Axis) : evalPoly t (coordP a i) = (relPoint i (t i) : Vec3 K).get a := by
  unfold coordP
  interval_cases i <;> cases a <;>
    simp [slotAxis, slotOff, relPoint, edgeCorner, kCellEdgeEndpoint, cornerPos, IVec3.get, Vec3.get, Vec3.set, toVec, eval_var, eval_const, eval_nil]

end Isomesh
