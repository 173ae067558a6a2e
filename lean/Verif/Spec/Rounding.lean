import Verif.Model.Float

/-! Specification of what is assumed about rounding where more than monotonicity is needed. -/

namespace Isomesh.Spec

/-- The relative error of one rounding is at most `u` (2^-53 for `double` and 2^-24 for `float`, rounding to nearest). -/
def RelError (F : FloatFormat) (u : ℝ) : Prop := ∀ x, |F.fl x - x| ≤ u * |x|

/-- Nothing underflows: positive numbers are not rounded to zero, and halving is exact. -/
structure NoUnderflow (F : FloatFormat) : Prop where
  pos : ∀ x, 0 < x → 0 < F.fl x
  half : ∀ x, F.Rep x → F.Rep (x / 2)

end Isomesh.Spec
