import Verif.Spec.Chunks
import Verif.Spec.Volume

/-! Specification for C89: cells of a world of chunks, and the volume of all meshes together. -/

namespace Isomesh.Spec

variable {K : Type} [Field K] [LinearOrder K]

/-- The cells of the chunks with all corners in the solid. -/
def solidCovered (f : ScalarField K) (origin : Vec3 K) (step : K) (n : Nat) (chunks : List (Chunk K)) : Set IVec3 :=
  {P | CellCovered n chunks P ∧ ∀ v ∈ cellVertices P, f.value (worldPos origin step v) ≤ 0}

/-- The cells of the chunks with some corner in the solid. -/
def touchedCovered (f : ScalarField K) (origin : Vec3 K) (step : K) (n : Nat) (chunks : List (Chunk K)) : Set IVec3 :=
  {P | CellCovered n chunks P ∧ ∃ v ∈ cellVertices P, f.value (worldPos origin step v) ≤ 0}

/-- The sum of the volumes that the meshes of the chunks enclose. -/
def totalVolume (chunks : List (Chunk K)) : K := (chunks.map fun k => enclosedVolume k.result).sum

end Isomesh.Spec
