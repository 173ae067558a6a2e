import Verif.Spec.Accuracy
import Verif.Spec.Filled

/-! Specification of how much of the surface a mesh must show. -/

namespace Isomesh.Spec

open Isomesh

/-- The point lies in the box covered by the grid, at least `m` steps from its border. -/
def InGridBox (g : Grid ℝ) (m : Int) (q : Vec3 ℝ) : Prop := ∀ D : Axis, |q.get D - g.globalPos.get D| ≤ ((g.maxCoord - m : Int) : ℝ) * g.step

/-- All points of the open ball are solid. -/
def SolidBall (f : ScalarField ℝ) (a : Vec3 ℝ) (R : ℝ) : Prop := ∀ x, dist2 x a < R ^ 2 → f.value x ≤ 0

/-- All points of the open ball are empty. -/
def EmptyBall (f : ScalarField ℝ) (b : Vec3 ℝ) (R : ℝ) : Prop := ∀ x, dist2 x b < R ^ 2 → 0 < f.value x

/-- The point lies in the box spanned by `a` and `b`, enlarged by `s` on every side. -/
def NearBox (a b : Vec3 ℝ) (s : ℝ) (v : Vec3 ℝ) : Prop :=
  ∀ D : Axis, min (a.get D) (b.get D) - s ≤ v.get D ∧ v.get D ≤ max (a.get D) (b.get D) + s

/-- Vertex number `i` of the mesh is used by a triangle. -/
def UsedVertex (r : PlacedMesh ℝ) (i : Nat) : Prop := ∃ t ∈ triangles r.mesh.indices, i = t.1 ∨ i = t.2.1 ∨ i = t.2.2

/-- Two lattice points are the ends of a unit edge: `p = e` and `q` its other end, or the other way round. -/
def EdgeEnds (D : Axis) (e p q : IVec3) : Prop := (p = e ∧ q = edgeEnd D e) ∨ (q = e ∧ p = edgeEnd D e)

/-- A walk along lattice edges. -/
def Walk (path : List IVec3) : Prop := path.IsChain fun p q => ∃ D e, EdgeEnds D e p q

end Isomesh.Spec
