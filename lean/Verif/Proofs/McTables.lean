import Verif.Proofs.MarchingCubes2

/-! Finite facts about the marching cubes triangle table, for all 256 patterns: sides of triangles inside a cell and on
its faces. -/

namespace Isomesh
open Spec

/-- Axis and side (0 or 1) of face `f < 6`. -/
def faceAxis (f : Nat) : Axis := if f < 2 then .X else if f < 4 then .Y else .Z
def faceSide (f : Nat) : Int := ((f % 2 : Nat) : Int)

/-- Outward unit vector of face `f`. -/
def faceDir (f : Nat) : IVec3 :=
  match faceAxis f with
  | .X => ⟨2 * faceSide f - 1, 0, 0⟩
  | .Y => ⟨0, 2 * faceSide f - 1, 0⟩
  | .Z => ⟨0, 0, 2 * faceSide f - 1⟩

/-- Cell edge `i` lies in face `f`. -/
def inFace (f i : Nat) : Bool := decide (slotAxis i ≠ faceAxis f) && decide ((slotOff i).get (faceAxis f) = faceSide f)

/-- The opposite face. -/
def oppFace (f : Nat) : Nat := f ^^^ 1

/-- The number, in the neighbour across face `f`, of the cell edge `i` of that face. -/
def oppSlot (f i : Nat) : Nat :=
  match faceAxis f with
  | .X => if i < 4 then i else if i < 8 then i ^^^ 2 else i ^^^ 1
  | .Y => if i < 4 then i ^^^ 2 else if i < 8 then i else i ^^^ 2
  | .Z => if i < 4 then i ^^^ 1 else if i < 8 then i ^^^ 1 else i

/-- Corners of face `f`, as a mask. -/
def faceMask (f : Nat) : Nat := maskOf (fun c => decide ((cornerPos c).get (faceAxis f) = faceSide f)) 8

/-- The corner across: `c` with its coordinate along the face axis flipped. -/
def flipCorner (f c : Nat) : Nat :=
  match faceAxis f with
  | .X => c ^^^ 2
  | .Y => c ^^^ 4
  | .Z => c ^^^ 1

/-- Pattern `m` restricted to face `f`, seen from the neighbour across `f`. -/
def mirrorMask (f m : Nat) : Nat :=
  maskOf (fun c => decide ((cornerPos c).get (faceAxis f) = 1 - faceSide f) && m.testBit (flipCorner f c)) 8

/-- Two cell edges in a common face. -/
def coface (i j : Nat) : Bool := (List.range 6).any fun f => inFace f i && inFace f j

/-- Table check: each directed side occurs once; the reverse occurs once if the side is inside the cell, never if it is
on a face. -/
def checkSides : Bool :=
  (List.range 256).all fun m =>
    let S := sides (mcTriangles m)
    S.all fun s => decide (s.1 < 12) && decide (s.2 < 12) && decide (s.1 ≠ s.2) && decide (S.count s = 1) &&
      decide (S.count (s.2, s.1) = if coface s.1 s.2 then 0 else 1)

theorem checkSides_true : checkSides = true := by decide +kernel

/-- Table check: a side on face `f` occurs, reversed, in the pattern that has the mirrored face and nothing else. -/
def checkMirror : Bool :=
  (List.range 256).all fun m => (List.range 6).all fun f =>
    let M := sides (mcTriangles (mirrorMask f m))
    (sides (mcTriangles m)).all fun s => !(inFace f s.1 && inFace f s.2) ||
      M.contains (oppSlot f s.2, oppSlot f s.1)

theorem checkMirror_true : checkMirror = true := by decide +kernel

/-- Table check: sides on face `f` depend only on the corners of that face. -/
def checkFace : Bool :=
  (List.range 256).all fun m => (List.range 6).all fun f =>
    let M := sides (mcTriangles m)
    (sides (mcTriangles (m &&& faceMask f))).all fun s => !(inFace f s.1 && inFace f s.2) || M.contains s

theorem checkFace_true : checkFace = true := by decide +kernel

theorem sides_table {m : Nat} (hm : m < 256) {s : Nat × Nat} (hs : s ∈ sides (mcTriangles m)) :
    s.1 < 12 ∧ s.2 < 12 ∧ s.1 ≠ s.2 ∧ (sides (mcTriangles m)).count s = 1 ∧
      (sides (mcTriangles m)).count (s.2, s.1) = if coface s.1 s.2 then 0 else 1 := by
  have h := checkSides_true
  unfold checkSides at h
  have h1 := List.all_eq_true.1 h m (List.mem_range.2 hm)
  have h2 := List.all_eq_true.1 h1 s hs
  simp only [Bool.and_eq_true, decide_eq_true_eq] at h2
  exact ⟨h2.1.1.1.1, h2.1.1.1.2, h2.1.1.2, h2.1.2, h2.2⟩

theorem sides_mirror {m f : Nat} (hm : m < 256) (hf : f < 6) {i j : Nat} (hs : (i, j) ∈ sides (mcTriangles m))
    (hi : inFace f i = true) (hj : inFace f j = true) :
    (oppSlot f j, oppSlot f i) ∈ sides (mcTriangles (mirrorMask f m)) := by
  have h := checkMirror_true
  unfold checkMirror at h
  have h1 := List.all_eq_true.1 (List.all_eq_true.1 h m (List.mem_range.2 hm)) f (List.mem_range.2 hf)
  have h2 := List.all_eq_true.1 h1 _ hs
  simp only [hi, hj, Bool.and_self, Bool.not_true, Bool.false_or, List.contains_iff_mem] at h2
  exact h2

theorem sides_face {m f : Nat} (hm : m < 256) (hf : f < 6) {i j : Nat}
    (hs : (i, j) ∈ sides (mcTriangles (m &&& faceMask f)))
    (hi : inFace f i = true) (hj : inFace f j = true) : (i, j) ∈ sides (mcTriangles m) := by
  have h := checkFace_true
  unfold checkFace at h
  have h1 := List.all_eq_true.1 (List.all_eq_true.1 h m (List.mem_range.2 hm)) f (List.mem_range.2 hf)
  have h2 := List.all_eq_true.1 h1 _ hs
  simp only [hi, hj, Bool.and_self, Bool.not_true, Bool.false_or, List.contains_iff_mem] at h2
  exact h2

set_option synthInstance.maxSize 4096 in
set_option synthInstance.maxHeartbeats 400000 in
/-- Edge slots on a face and their counterparts. -/
theorem opp_table : ∀ f < 6, ∀ i < 12, inFace f i = true → oppSlot f i < 12 ∧ inFace (oppFace f) (oppSlot f i) = true ∧
    oppSlot (oppFace f) (oppSlot f i) = i ∧ slotAxis (oppSlot f i) = slotAxis i ∧
    (slotOff i).x = (faceDir f).x + (slotOff (oppSlot f i)).x ∧
    (slotOff i).y = (faceDir f).y + (slotOff (oppSlot f i)).y ∧
    (slotOff i).z = (faceDir f).z + (slotOff (oppSlot f i)).z ∧ oppFace f < 6 ∧
    oppFace (oppFace f) = f := by decide +kernel

/-- Check: two different edges common to two different cells lie on the face between the cells. -/
def checkCommon : Bool :=
  (List.range 12).all fun i => (List.range 12).all fun i' =>
    !(decide (slotAxis i = slotAxis i')) || decide (i = i') ||
    (List.range 12).all fun j => decide (i = j) || (List.range 12).all fun j' =>
      !(decide (slotAxis j = slotAxis j')) ||
      !(decide ((slotOff i).x - (slotOff i').x = (slotOff j).x - (slotOff j').x)) ||
      !(decide ((slotOff i).y - (slotOff i').y = (slotOff j).y - (slotOff j').y)) ||
      !(decide ((slotOff i).z - (slotOff i').z = (slotOff j).z - (slotOff j').z)) ||
      (List.range 6).any fun f => inFace f i && inFace f j && decide (i' = oppSlot f i) && decide (j' = oppSlot f j)

theorem checkCommon_true : checkCommon = true := by decide +kernel

theorem common_edges {i i' j j' : Nat} (hi : i < 12) (hi' : i' < 12) (hj : j < 12) (hj' : j' < 12) (hij : i ≠ j)
    (ai : slotAxis i = slotAxis i') (aj : slotAxis j = slotAxis j')
    (hx : (slotOff i).x - (slotOff i').x = (slotOff j).x - (slotOff j').x)
    (hy : (slotOff i).y - (slotOff i').y = (slotOff j).y - (slotOff j').y)
    (hz : (slotOff i).z - (slotOff i').z = (slotOff j).z - (slotOff j').z) :
    i = i' ∨ ∃ f < 6, inFace f i = true ∧ inFace f j = true ∧ i' = oppSlot f i ∧ j' = oppSlot f j := by
  by_cases hii : i = i'
  · exact Or.inl hii
  · right
    have h := checkCommon_true
    unfold checkCommon at h
    have h := List.all_eq_true.1 (List.all_eq_true.1 h i (List.mem_range.2 hi)) i' (List.mem_range.2 hi')
    simp only [ai, hii, decide_true, decide_false, Bool.not_true, Bool.false_or] at h
    have h := List.all_eq_true.1 h j (List.mem_range.2 hj)
    simp only [hij, decide_false, Bool.false_or] at h
    have h := List.all_eq_true.1 h j' (List.mem_range.2 hj')
    simp only [aj, hx, hy, hz, decide_true, Bool.not_true, Bool.false_or] at h
    obtain ⟨f, hf, h⟩ := List.any_eq_true.1 h
    simp only [Bool.and_eq_true, decide_eq_true_eq] at h
    exact ⟨f, List.mem_range.1 hf, h.1.1.1, h.1.1.2, h.1.2, h.2⟩

set_option synthInstance.maxSize 4096 in
set_option synthInstance.maxHeartbeats 400000 in
/-- Two different edges of a cell are in at most one common face. -/
theorem coface_unique : ∀ f < 6, ∀ f' < 6, ∀ i < 12, ∀ j < 12, i ≠ j → inFace f i = true → inFace f j = true →
    inFace f' i = true → inFace f' j = true → f = f' := by decide +kernel

theorem flip_table : ∀ f < 6, ∀ c < 8, flipCorner f c < 8 ∧
    ((cornerPos c).get (faceAxis f) = 1 - faceSide f →
      (cornerPos (flipCorner f c)).x = (faceDir f).x + (cornerPos c).x ∧
      (cornerPos (flipCorner f c)).y = (faceDir f).y + (cornerPos c).y ∧
      (cornerPos (flipCorner f c)).z = (faceDir f).z + (cornerPos c).z) ∧
    faceAxis (oppFace f) = faceAxis f ∧ faceSide (oppFace f) = 1 - faceSide f := by decide +kernel

end Isomesh
