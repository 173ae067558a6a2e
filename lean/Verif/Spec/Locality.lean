import Verif.Spec.Accuracy
import Verif.Spec.Filled

/-! Specification of the locality of edits: what it means that two fields differ only in a region and that a cell of a grid
stays clear of the region. -/

namespace Isomesh.Spec

open Isomesh

/-- The callbacks of the two fields give the same answers at the point `q`. -/
def AgreeAt (f f' : ScalarField ℝ) (q : Vec3 ℝ) : Prop :=
  f'.value q = f.value q ∧ f'.grad q = f.grad q ∧ ∀ v, f'.material q v = f.material q v

/-- `q` is a point of the (closed) cell `P` of the grid at `origin` with step `step`. -/
def InWorldCell (origin : Vec3 ℝ) (step : ℝ) (P : IVec3) (q : Vec3 ℝ) : Prop :=
  ∀ a, (worldPos origin step P).get a ≤ q.get a ∧ q.get a ≤ (worldPos origin step P).get a + step

/-- A zero finder whose answer for an edge depends only on the values of the field on that edge. -/
def LocalFinder (sv : ZeroFinder ℝ) (origin : Vec3 ℝ) (step : ℝ) : Prop :=
  ∀ (f f' : ScalarField ℝ) (D : Axis) (p : IVec3), Crosses f (worldPos origin step) D p →
    (∀ q, OnGridEdge origin step D p q → f'.value q = f.value q) →
    crossingCoord f' sv (worldPos origin step) D p = crossingCoord f sv (worldPos origin step) D p

/-- The triangles of a mesh, given by their vertices (position, normal and material) instead of indices. -/
def shownTriangles (r : PlacedMesh ℝ) : List (Option (MeshVertex ℝ) × Option (MeshVertex ℝ) × Option (MeshVertex ℝ)) :=
  (triangles r.mesh.indices).map fun t => (r.mesh.vertices[t.1]?, r.mesh.vertices[t.2.1]?, r.mesh.vertices[t.2.2]?)

/-- All three vertices exist and lie in the cell `P`. -/
def TriangleInCell (r : PlacedMesh ℝ) (P : IVec3)
    (t : Option (MeshVertex ℝ) × Option (MeshVertex ℝ) × Option (MeshVertex ℝ)) : Prop :=
  ∃ a b c, t = (some a, some b, some c) ∧ InWorldCell r.globalPos r.globalScale P (meshToWorld r a.position) ∧
    InWorldCell r.globalPos r.globalScale P (meshToWorld r b.position) ∧
    InWorldCell r.globalPos r.globalScale P (meshToWorld r c.position)

/-- All three vertices exist and each lies in one of the cells. -/
def TriangleInCells (r : PlacedMesh ℝ) (cells : List IVec3)
    (t : Option (MeshVertex ℝ) × Option (MeshVertex ℝ) × Option (MeshVertex ℝ)) : Prop :=
  ∃ a b c, t = (some a, some b, some c) ∧ (∃ P ∈ cells, InWorldCell r.globalPos r.globalScale P (meshToWorld r a.position)) ∧
    (∃ P ∈ cells, InWorldCell r.globalPos r.globalScale P (meshToWorld r b.position)) ∧
    (∃ P ∈ cells, InWorldCell r.globalPos r.globalScale P (meshToWorld r c.position))

end Isomesh.Spec
