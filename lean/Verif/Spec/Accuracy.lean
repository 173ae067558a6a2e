import Mathlib.Topology.Order.IntermediateValue
import Mathlib.Topology.Instances.Real.Lemmas
import Verif.Model.MarchingCubes
import Verif.Spec.Fill

/-! Specification of how far a mesh may be from the surface it approximates (the set of zeros of the field). -/

namespace Isomesh.Spec

open Isomesh

/-- Square of the distance of two points. -/
def dist2 (a b : Vec3 ℝ) : ℝ := (a.x - b.x) ^ 2 + (a.y - b.y) ^ 2 + (a.z - b.z) ^ 2

/-- The field is continuous along lines parallel to the axes (less than continuity). -/
def AxisContinuous (f : ScalarField ℝ) : Prop := ∀ (D : Axis) (p : Vec3 ℝ), Continuous fun c => f.value (p.set D c)

/-- Global position of a point given in the local coordinates of a mesh. -/
def meshToWorld (r : PlacedMesh ℝ) (p : Vec3 ℝ) : Vec3 ℝ :=
  ⟨p.x * r.globalScale + r.globalPos.x, p.y * r.globalScale + r.globalPos.y, p.z * r.globalScale + r.globalPos.z⟩

/-- `q` is a point of the triangle with the vertices `a`, `b`, `c`. -/
def InTriangle (a b c q : Vec3 ℝ) : Prop :=
  ∃ α β γ : ℝ, 0 ≤ α ∧ 0 ≤ β ∧ 0 ≤ γ ∧ α + β + γ = 1 ∧
    q = ⟨α * a.x + β * b.x + γ * c.x, α * a.y + β * b.y + γ * c.y, α * a.z + β * b.z + γ * c.z⟩

/-- `q` is a point (in global coordinates) of triangle `t` of the mesh. -/
def OnMeshTriangle (r : PlacedMesh ℝ) (t : Nat × Nat × Nat) (q : Vec3 ℝ) : Prop :=
  ∃ a b c, r.mesh.vertices[t.1]? = some a ∧ r.mesh.vertices[t.2.1]? = some b ∧ r.mesh.vertices[t.2.2]? = some c ∧
    InTriangle (meshToWorld r a.position) (meshToWorld r b.position) (meshToWorld r c.position) q

/-- `z` lies on the segment between the endpoints of the grid edge at `p` along `D`. -/
def OnGridEdge (origin : Vec3 ℝ) (step : ℝ) (D : Axis) (p : IVec3) (z : Vec3 ℝ) : Prop :=
  ∃ s : ℝ, 0 ≤ s ∧ s ≤ 1 ∧ z = (worldPos origin step p).set D ((worldPos origin step p).get D + s * step)

/-- A zero finder that never leaves the given segment when it is called for an edge crossed by the surface. -/
def StaysOnEdges (f : ScalarField ℝ) (solver : ZeroFinder ℝ) (origin : Vec3 ℝ) (step : ℝ) : Prop :=
  ∀ D p, Crosses f (worldPos origin step) D p →
    (worldPos origin step p).get D ≤ crossingCoord f solver (worldPos origin step) D p ∧
    crossingCoord f solver (worldPos origin step) D p ≤ (worldPos origin step (edgeEnd D p)).get D

end Isomesh.Spec
