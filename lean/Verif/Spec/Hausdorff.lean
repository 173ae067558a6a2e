import Verif.Spec.Convergence
import Verif.Spec.Accuracy

/-! Specification for C92: the points of the meshes of a world of chunks and the surface of the body. -/

namespace Isomesh.Spec

/-- The points of all triangles of all the chunks' meshes, in the world. -/
def meshPoints (chunks : List (Chunk ℝ)) : Set (Fin 3 → ℝ) :=
  {x | ∃ k ∈ chunks, ∃ t ∈ triangles k.result.mesh.indices, OnMeshTriangle k.result t (point x)}

/-- The surface of the body. -/
def Surface (f : ScalarField ℝ) : Set (Fin 3 → ℝ) := frontier (Body f)

/-- A body without parts of thickness zero: arbitrarily near to each point of the surface there are inner and outer points. -/
def ThickBody (f : ScalarField ℝ) : Prop :=
  Surface f ⊆ closure (interior (Body f)) ∧ Surface f ⊆ closure (interior (Body f)ᶜ)

end Isomesh.Spec
