import Verif.Model.Octree
import Verif.Spec.Geometry

/-! Specification vocabulary for octrees placed in space. -/

namespace Isomesh.Spec

/-- An axis-parallel lattice cube with lower corner `lo` and side `2 ^ k`. -/
structure Cube where
  lo : IVec3
  k : Nat
  deriving DecidableEq

/-- Side length. -/
def Cube.side (c : Cube) : Int := 2 ^ c.k

/-- The unit cell with lower corner `u` is part of the cube. -/
def Cube.Has (c : Cube) (u : IVec3) : Prop :=
  (c.lo.x ≤ u.x ∧ u.x < c.lo.x + c.side) ∧ (c.lo.y ≤ u.y ∧ u.y < c.lo.y + c.side) ∧
  (c.lo.z ≤ u.z ∧ u.z < c.lo.z + c.side)

/-- `a` is part of `b`. -/
def Cube.Sub (a b : Cube) : Prop :=
  (b.lo.x ≤ a.lo.x ∧ a.lo.x + a.side ≤ b.lo.x + b.side) ∧ (b.lo.y ≤ a.lo.y ∧ a.lo.y + a.side ≤ b.lo.y + b.side) ∧
  (b.lo.z ≤ a.lo.z ∧ a.lo.z + a.side ≤ b.lo.z + b.side)

/-- Which of the two halves along each axis the octant `i` takes: z fastest, then x, then y. -/
def octOff : Fin 8 → IVec3 :=
  ![⟨0, 0, 0⟩, ⟨0, 0, 1⟩, ⟨1, 0, 0⟩, ⟨1, 0, 1⟩, ⟨0, 1, 0⟩, ⟨0, 1, 1⟩, ⟨1, 1, 0⟩, ⟨1, 1, 1⟩]

/-- `o + s * offset`. -/
def octCorner (o : IVec3) (s : Int) (i : Fin 8) : IVec3 :=
  ⟨o.x + s * (octOff i).x, o.y + s * (octOff i).y, o.z + s * (octOff i).z⟩

/-- The octant `i` of a cube. -/
def Cube.octant (c : Cube) (i : Fin 8) : Cube := ⟨octCorner c.lo (2 ^ (c.k - 1)) i, c.k - 1⟩

/-- The octree with every leaf labelled by the cube it occupies, when the root occupies the cube `c`. -/
def locate {N L : Type} : Oct N L → Cube → Oct N (Cube × L)
  | .leaf d, c => .leaf (c, d)
  | .inner d ch, c => .inner d fun i => locate (ch i) (c.octant i)

/-- Position of the `i`-th of the four cubes of side 1 around the unit segment from the origin along `D`, counted as in
`cellsAroundEdge`. -/
def edgeOff : Axis → Fin 4 → IVec3
  | .X => ![⟨0, -1, -1⟩, ⟨0, 0, -1⟩, ⟨0, 0, 0⟩, ⟨0, -1, 0⟩]
  | .Y => ![⟨-1, 0, -1⟩, ⟨-1, 0, 0⟩, ⟨0, 0, 0⟩, ⟨0, 0, -1⟩]
  | .Z => ![⟨-1, -1, 0⟩, ⟨0, -1, 0⟩, ⟨0, 0, 0⟩, ⟨-1, 0, 0⟩]

/-- The lower corner of the `i`-th of the four cubes of side `s` around the segment of length `s` from `p` along `D`. -/
def edgeCorner (D : Axis) (p : IVec3) (s : Int) (i : Fin 4) : IVec3 :=
  ⟨p.x + s * (edgeOff D i).x, p.y + s * (edgeOff D i).y, p.z + s * (edgeOff D i).z⟩

/-- The segment from `p` along `D` of length `2 ^ j` is a minimal edge of the octree placed in the cube `c`, and `q` are
the leaves around it: each of the four cubes of that size around the segment is part of the leaf `q i`, and one of them
is a whole leaf (so the segment is an edge of this leaf, and no leaf around it is smaller). -/
structure MinimalEdge {N L : Type} (t : Oct N L) (c : Cube) (D : Axis) (p : IVec3) (j : Nat) (q : Fin 4 → Cube × L) : Prop where
  leaf : ∀ i, q i ∈ (locate t c).leaves
  contains : ∀ i, Cube.Sub ⟨edgeCorner D p (2 ^ j) i, j⟩ (q i).1
  least : ∃ i, (q i).1 = ⟨edgeCorner D p (2 ^ j) i, j⟩

/-- The lower corner of the cube of side `s` in the octant `i` around the lattice point `p`. -/
def vertCorner (p : IVec3) (s : Int) (i : Fin 8) : IVec3 := octCorner ⟨p.x - s, p.y - s, p.z - s⟩ s i

/-- The lattice point `p` is a corner of a leaf of the octree placed in the cube `c`, interior to the cube, and `q` are
the leaves in the eight octants around it. -/
structure MinimalVertex {N L : Type} (t : Oct N L) (c : Cube) (p : IVec3) (q : Fin 8 → Cube × L) : Prop where
  leaf : ∀ i, q i ∈ (locate t c).leaves
  contains : ∀ i, (q i).1.Has (vertCorner p 1 i)
  corner : ∃ i, (q i).1.lo = vertCorner p (q i).1.side i

end Isomesh.Spec
