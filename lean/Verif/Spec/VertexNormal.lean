import Verif.Spec.DcError
import Verif.Spec.Flat

/-! C105: directions of normals. -/

namespace Isomesh.Spec

/-- A unit vector whose component along `u` is at least `γ`; for a unit vector `u` and `γ = cos θ` the angle to `u` is at most `θ`. -/
def UnitWithin (u : Vec3 ℝ) (γ : ℝ) (n : Vec3 ℝ) : Prop := n.x ^ 2 + n.y ^ 2 + n.z ^ 2 = 1 ∧ γ ≤ n.x * u.x + n.y * u.y + n.z * u.z

/-- The stored normal of every surface crossing on a grid edge of the cube has a component of at least `γ` along `u`. -/
def NormalsWithin (eps : ℝ) (g : Grid ℝ) (c : Cube) (u : Vec3 ℝ) (γ : ℝ) : Prop :=
  ∀ P, c.Has P → ∀ e ∈ edgeList g, EdgeOfCell P e.axis e.lesser →
    γ ≤ (edgeNormal eps e.gradient).x * u.x + (edgeNormal eps e.gradient).y * u.y + (edgeNormal eps e.gradient).z * u.z

/-- A vector other than zero whose component along `u` is at least `γ` times its length. -/
def InCone (u : Vec3 ℝ) (γ : ℝ) (n : Vec3 ℝ) : Prop := n ≠ ⟨0, 0, 0⟩ ∧ γ * n.length ≤ n.x * u.x + n.y * u.y + n.z * u.z

end Isomesh.Spec
