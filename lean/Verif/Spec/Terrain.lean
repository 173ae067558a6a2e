import Verif.Model.Heightmap
import Verif.Spec.Completeness

/-! Specification for C94: terrains. -/

namespace Isomesh.Spec

/-- The heightmap describes the terrain of height `H x z` above the point `(x, z)` of the plane: its value is the altitude above the terrain. -/
def IsTerrain (hm : Heightmap) (H : ℝ → ℝ → ℝ) : Prop := ∀ x y z, hm.value x y z = some (y - H x z)

/-- The terrain climbs at most by `A` per unit along x and by `B` per unit along z. -/
def SlopeAtMost (H : ℝ → ℝ → ℝ) (A B : ℝ) : Prop := ∀ x z x' z', |H x z - H x' z'| ≤ A * |x - x'| + B * |z - z'|

/-- World coordinates of the vertical line of the grid with the lattice coordinates `x` and `z`. -/
noncomputable def lineX (g : Grid ℝ) (x : Int) : ℝ := x * g.step + g.globalPos.x
noncomputable def lineZ (g : Grid ℝ) (z : Int) : ℝ := z * g.step + g.globalPos.z

/-- The terrain crosses the vertical line between the bottom (included) and the top (excluded) of the grid. -/
def LineCrossed (g : Grid ℝ) (H : ℝ → ℝ → ℝ) (x z : Int) : Prop :=
  -(g.maxCoord : ℝ) * g.step + g.globalPos.y ≤ H (lineX g x) (lineZ g z) ∧ H (lineX g x) (lineZ g z) < g.maxCoord * g.step + g.globalPos.y

/-- Every point of every triangle of the mesh is at most `d` above or below the terrain. -/
def WithinHeight (r : PlacedMesh ℝ) (H : ℝ → ℝ → ℝ) (d : ℝ) : Prop :=
  ∀ t ∈ triangles r.mesh.indices, ∀ q, OnMeshTriangle r t q → |q.y - H q.x q.z| ≤ d

end Isomesh.Spec
