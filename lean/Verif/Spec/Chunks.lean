import Verif.Spec.Filled
import Verif.Model.MarchingCubes

/-! Specification of a world cut into chunks: grids of one size and step that lie next to each other, each of them filled
from the same field and meshed on its own. -/

namespace Isomesh.Spec

variable {K : Type} [Add K] [Sub K] [Mul K] [Div K] [Zero K] [IntCast K] [LinearOrder K]

/-- The lattice point `p` of the chunk with coordinates `c`, as a point of the lattice of the whole world; `n` cells per side
of a chunk. -/
def chunkPoint (n : Nat) (c p : IVec3) : IVec3 := shift p (n * c.x) (n * c.y) (n * c.z)

/-- The same for a lattice edge. -/
def chunkEdge (n : Nat) (c : IVec3) (e : LEdge) : LEdge := ⟨e.axis, chunkPoint n c e.at_⟩

/-- A chunk: its coordinates in the world (in units of chunks), its filled grid and the mesh built from that grid. -/
structure Chunk (K : Type) where
  coord : IVec3
  grid : Grid K
  result : PlacedMesh K

/-- The chunk is what the library computes from the field: a grid of `n` cells per side and the given step, whose centre is at
`origin` plus `n * step` times the chunk's coordinates, filled and then meshed with marching cubes. -/
def Chunk.Computed (f : ScalarField K) (sv : ZeroFinder K) (nrm : Vec3 K → Vec3 K) (origin : Vec3 K) (step : K) (n : Nat)
    (k : Chunk K) : Prop :=
  ∃ g : Grid K, g.Reachable ∧ g.size = n ∧ g.step = step ∧
    g.globalPos = worldPos origin (((n : Int) : K) * step) k.coord ∧
    g.fill f sv = some k.grid ∧ marchingCubes nrm k.grid = some k.result

/-- The directed sides of the chunk's triangles; a vertex is given by the edge of the world's lattice on which it lies. -/
def Chunk.worldSides (n : Nat) (k : Chunk K) : List (LEdge × LEdge) :=
  (sides (triangles k.result.mesh.indices)).filterMap fun s =>
    match (edgeList k.grid)[s.1]?, (edgeList k.grid)[s.2]? with
    | some a, some b => some (chunkEdge n k.coord (.ofGridEdge a), chunkEdge n k.coord (.ofGridEdge b))
    | _, _ => none

/-- The cell `P` of the world's lattice belongs to the chunk. -/
def Chunk.HasCell (n : Nat) (k : Chunk K) (P : IVec3) : Prop :=
  ∃ Q, CellIn k.grid.maxCoord Q ∧ P = chunkPoint n k.coord Q

/-- The cell `P` belongs to some chunk. -/
def CellCovered (n : Nat) (chunks : List (Chunk K)) (P : IVec3) : Prop := ∃ k ∈ chunks, k.HasCell n P

/-- Both endpoints of the lattice edge are corners of the cell `P`. -/
def LEdge.InCell (P : IVec3) (e : LEdge) : Prop := ∀ v ∈ edgeVertices e.axis e.at_, v ∈ cellVertices P

end Isomesh.Spec
