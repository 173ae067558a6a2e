import Verif.Spec.Filled

/-! Specification of "the same signs" for C84. -/

namespace Isomesh.Spec

variable {K : Type} [Add K] [Sub K] [Mul K] [Div K] [Zero K] [IntCast K] [LinearOrder K]

/-- Two grids of the same size whose fields agree in sign (solid: value ≤ 0) at corresponding points, wherever the grids lie and
whatever their steps. -/
def SameSigns (g g' : Grid K) (f f' : ScalarField K) : Prop :=
  g'.size = g.size ∧ ∀ p, InCube g.maxCoord p →
    (f'.value (samplePos g'.globalPos g'.step g'.maxCoord p) ≤ 0 ↔ f.value (samplePos g.globalPos g.step g.maxCoord p) ≤ 0)

end Isomesh.Spec
