import Verif.Spec.Filled
import Verif.Spec.Placement
import Mathlib.Data.Set.Card

/-! Specification: the volume enclosed by a mesh. -/

namespace Isomesh.Spec

variable {K : Type} [Field K] [LinearOrder K]

/-- Six times the volume of the tetrahedron with corners `0, a, b, c`, with sign. -/
def tripleProduct (a b c : Vec3 K) : K := a.dot (b.cross c)

/-- The volume enclosed by the triangles of a mesh, in the coordinates of the world: the sum of the signed volumes of the tetrahedra
that they form with the origin.  (For a closed surface with the triangles oriented outwards this is the volume inside.) -/
def enclosedVolume (r : PlacedMesh K) : K :=
  ((triangles r.mesh.indices).map fun t =>
    match r.mesh.vertices[t.1]?, r.mesh.vertices[t.2.1]?, r.mesh.vertices[t.2.2]? with
    | some a, some b, some c => tripleProduct (toWorld r a.position) (toWorld r b.position) (toWorld r c.position) / 6
    | _, _, _ => 0).sum

/-- The cells of the cube `[-h, h]^3` with all corners in a set. -/
def solidCells (h : Int) (solid : IVec3 → Prop) : Set IVec3 := {P | CellIn h P ∧ ∀ v ∈ cellVertices P, solid v}

/-- The cells with some corner in it. -/
def touchedCells (h : Int) (solid : IVec3 → Prop) : Set IVec3 := {P | CellIn h P ∧ ∃ v ∈ cellVertices P, solid v}

end Isomesh.Spec
