import Verif.Spec.ChunkVolume
import Mathlib.MeasureTheory.Measure.Lebesgue.Basic
import Mathlib.Topology.MetricSpace.Thickening

/-! Specification for C91: the body described by a field and its volume (Lebesgue measure in space). -/

namespace Isomesh.Spec
open MeasureTheory

/-- A point of space, given by three coordinates. -/
def point (x : Fin 3 → ℝ) : Vec3 ℝ := ⟨x 0, x 1, x 2⟩

/-- The body: where the field is not positive. -/
def Body (f : ScalarField ℝ) : Set (Fin 3 → ℝ) := {x | f.value (point x) ≤ 0}

/-- The volume of the body. -/
noncomputable def bodyVolume (f : ScalarField ℝ) : ℝ := (volume (Body f)).toReal

/-- The volume of the layer around the surface of the body in which every coordinate differs by at most `d` from that of a point of the
surface (the distance of `Fin 3 → ℝ` is the largest difference of coordinates). -/
noncomputable def layerVolume (f : ScalarField ℝ) (d : ℝ) : ℝ := (volume (Metric.cthickening d (frontier (Body f)))).toReal

/-- The body is strictly inside the box of the grid. -/
def BodyInGrid (f : ScalarField ℝ) (g : Grid ℝ) : Prop :=
  ∀ q : Vec3 ℝ, f.value q ≤ 0 → ∀ a, -(g.maxCoord : ℝ) * g.step + g.globalPos.get a < q.get a ∧
    q.get a < g.maxCoord * g.step + g.globalPos.get a

/-- The point is in the closed cell of the lattice. -/
def InClosedCell (origin : Vec3 ℝ) (step : ℝ) (P : IVec3) (q : Vec3 ℝ) : Prop :=
  ∀ a, (P.get a : ℝ) * step + origin.get a ≤ q.get a ∧ q.get a ≤ ((P.get a : ℝ) + 1) * step + origin.get a

/-- The body is strictly inside the region of the chunks: every cell that contains one of its points belongs to a chunk. -/
def BodyCovered (f : ScalarField ℝ) (origin : Vec3 ℝ) (step : ℝ) (n : Nat) (chunks : List (Chunk ℝ)) : Prop :=
  ∀ q : Vec3 ℝ, f.value q ≤ 0 → ∀ P, InClosedCell origin step P q → CellCovered n chunks P

end Isomesh.Spec
