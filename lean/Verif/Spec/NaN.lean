import Verif.Spec.Filled

/-! Specification: floating-point values that are not numbers. -/

namespace Isomesh.Spec

variable {K : Type} [Zero K] [LE K] [LT K]

/-- The value is neither positive nor non-positive: a floating-point NaN. -/
def IsNaN (v : K) : Prop := ¬ v > 0 ∧ ¬ v ≤ 0

/-- The field has no number as its value at `q`, and nevertheless names a material there. -/
def BadPoint (f : ScalarField K) (q : Vec3 K) : Prop := IsNaN (f.value q) ∧ f.material q (f.value q) ≠ .Empty

end Isomesh.Spec
