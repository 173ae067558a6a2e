import Verif.Spec.DualHausdorff
import Verif.Spec.Volume

/-! Specification for C95: solid points and crossed edges of the box of a mesh, and bodies inside it. -/

namespace Isomesh.Spec

/-- The lattice point is in the closed box of the patch. -/
def Patch.HasPoint (k : Patch) (p : IVec3) : Prop := ∀ a : Axis, k.corner.get a ≤ p.get a ∧ p.get a ≤ k.corner.get a + k.side

/-- The field is positive at the lattice points on the surface of the box of the patch. -/
def ClearOfPatch (f : ScalarField ℝ) (origin : Vec3 ℝ) (step : ℝ) (k : Patch) : Prop :=
  ∀ p, k.HasPoint p → (∃ a : Axis, p.get a = k.corner.get a ∨ p.get a = k.corner.get a + k.side) → 0 < f.value (worldPos origin step p)

/-- The lattice points of the box where the field is not positive. -/
def solidPoints (f : ScalarField ℝ) (origin : Vec3 ℝ) (step : ℝ) (k : Patch) : Set IVec3 :=
  {p | k.HasPoint p ∧ f.value (worldPos origin step p) ≤ 0}

/-- The edges of the box between a solid point and another point. -/
def crossedEdges (f : ScalarField ℝ) (origin : Vec3 ℝ) (step : ℝ) (k : Patch) : Set LEdge :=
  {e | k.HasPoint e.at_ ∧ k.HasPoint (edgeEnd e.axis e.at_) ∧ Crosses f (worldPos origin step) e.axis e.at_}

/-- The body is strictly inside the box of the patch. -/
def BodyInPatch (f : ScalarField ℝ) (origin : Vec3 ℝ) (step : ℝ) (k : Patch) : Prop :=
  ∀ q : Vec3 ℝ, f.value q ≤ 0 → ∀ a : Axis, (k.corner.get a : ℝ) * step + origin.get a < q.get a ∧
    q.get a < ((k.corner.get a + k.side : Int) : ℝ) * step + origin.get a

end Isomesh.Spec
