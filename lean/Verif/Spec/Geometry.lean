import Verif.Basic

/-! Specification: geometry of the integer lattice cube `[-h, h]^3`, independent of the grid code. -/

namespace Isomesh.Spec

/-- `p` is a vertex of the lattice cube with half-size `h`. -/
def InCube (h : Int) (p : IVec3) : Prop :=
  (-h ≤ p.x ∧ p.x ≤ h) ∧ (-h ≤ p.y ∧ p.y ≤ h) ∧ (-h ≤ p.z ∧ p.z ≤ h)

instance (h : Int) (p : IVec3) : Decidable (InCube h p) := by unfold InCube; infer_instance

/-- Shift of a lattice point. -/
def shift (p : IVec3) (dx dy dz : Int) : IVec3 := ⟨p.x + dx, p.y + dy, p.z + dz⟩

/-- The two endpoints of the unit edge starting at `p` along `D`. -/
def edgeVertices (D : Axis) (p : IVec3) : List IVec3 :=
  match D with
  | .X => [p, shift p 1 0 0]
  | .Y => [p, shift p 0 1 0]
  | .Z => [p, shift p 0 0 1]

/-- The four corners of the unit face at `p` orthogonal to `D`. -/
def faceVertices (D : Axis) (p : IVec3) : List IVec3 :=
  match D with
  | .X => [p, shift p 0 1 0, shift p 0 0 1, shift p 0 1 1]
  | .Y => [p, shift p 1 0 0, shift p 0 0 1, shift p 1 0 1]
  | .Z => [p, shift p 1 0 0, shift p 0 1 0, shift p 1 1 0]

/-- The eight corners of the unit cell at `p`: z fastest, then x, then y. -/
def cellVertices (p : IVec3) : List IVec3 :=
  [p, shift p 0 0 1, shift p 1 0 0, shift p 1 0 1, shift p 0 1 0, shift p 0 1 1, shift p 1 1 0, shift p 1 1 1]

/-- A cell belongs to the cube iff all its corners do. -/
def CellIn (h : Int) (c : IVec3) : Prop := ∀ v ∈ cellVertices c, InCube h v

/-- The eight unit cells of the infinite lattice around a vertex. -/
def cellsAroundVertex (p : IVec3) : List IVec3 :=
  [shift p 0 0 0, shift p (-1) 0 0, shift p 0 (-1) 0, shift p 0 0 (-1), shift p (-1) (-1) 0, shift p (-1) 0 (-1),
   shift p 0 (-1) (-1), shift p (-1) (-1) (-1)]

/-- The four unit cells of the infinite lattice around an edge, in counterclockwise order when seen from the end of
the positive `D` axis, starting with the least one: consecutive cells share a face. The frame orientations used are
(y,z) → for X: (−,−),(0 y,−z)...; see `C04` for the adjacency statement. -/
def cellsAroundEdge (D : Axis) (p : IVec3) : List IVec3 :=
  match D with
  | .X => [shift p 0 (-1) (-1), shift p 0 0 (-1), shift p 0 0 0, shift p 0 (-1) 0]
  | .Y => [shift p (-1) 0 (-1), shift p (-1) 0 0, shift p 0 0 0, shift p 0 0 (-1)]
  | .Z => [shift p (-1) (-1) 0, shift p 0 (-1) 0, shift p 0 0 0, shift p (-1) 0 0]

/-- The two unit cells on the sides of a face. -/
def cellsAroundFace (D : Axis) (p : IVec3) : List IVec3 :=
  match D with
  | .X => [shift p (-1) 0 0, p]
  | .Y => [shift p 0 (-1) 0, p]
  | .Z => [shift p 0 0 (-1), p]

/-- The six face neighbours of a cell. -/
def cellNeighbours (p : IVec3) : List IVec3 :=
  [shift p 1 0 0, shift p (-1) 0 0, shift p 0 1 0, shift p 0 (-1) 0, shift p 0 0 1, shift p 0 0 (-1)]

/-- (Y, X, Z) lexicographic order. -/
def LexYXZ (p q : IVec3) : Prop :=
  p.y < q.y ∨ (p.y = q.y ∧ (p.x < q.x ∨ (p.x = q.x ∧ p.z < q.z)))

end Isomesh.Spec
