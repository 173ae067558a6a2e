import Mathlib.Analysis.SpecialFunctions.Trigonometric.Arctan
import Mathlib.Analysis.SpecialFunctions.Sqrt
import Verif.Basic

/-! Functions of `<cmath>` on a scalar type.  The models of the dual methods are written for any type with the arithmetic operations,
these functions and a linear order; no law of arithmetic is assumed in the definitions. -/

namespace Isomesh

/-- `sqrt`, `atan`, `sin`, `cos` and `atan (inf)`. -/
class Elem (K : Type) where
  sqrt : K → K
  atan : K → K
  sin : K → K
  cos : K → K
  halfPi : K

/-- The functions in exact arithmetic. -/
noncomputable instance : Elem ℝ := ⟨Real.sqrt, Real.arctan, Real.sin, Real.cos, Real.pi / 2⟩

@[simp] theorem elem_sqrt (x : ℝ) : Elem.sqrt x = Real.sqrt x := rfl
@[simp] theorem elem_atan (x : ℝ) : Elem.atan x = Real.arctan x := rfl
@[simp] theorem elem_sin (x : ℝ) : Elem.sin x = Real.sin x := rfl
@[simp] theorem elem_cos (x : ℝ) : Elem.cos x = Real.cos x := rfl
@[simp] theorem elem_halfPi : (Elem.halfPi : ℝ) = Real.pi / 2 := rfl

/-- The few laws used by theorems that hold for rounded arithmetic too. -/
class RoundedLaws (K : Type) [Add K] [Mul K] [Div K] [Zero K] [One K] [OfScientific K] [IntCast K] [Fabs K] [LinearOrder K] : Prop where
  fabs_zero : fabs (0 : K) = 0
  /-- Conversion of integers keeps the order. -/
  cast_mono : ∀ a b : Int, a ≤ b → (a : K) ≤ (b : K)
  /-- Adding one to a converted integer does not make it less. -/
  cast_succ : ∀ a : Int, (a : K) ≤ (a : K) + 1
  /-- Small integers are converted exactly as far as adding one is concerned. -/
  cast_add_one : ∀ a : Int, |a| < 2 ^ 20 → ((a + 1 : Int) : K) = (a : K) + 1
  /-- Division by a positive number keeps the order and is unbounded. -/
  div_mono : ∀ a b c : K, 0 < c → a ≤ b → a / c ≤ b / c
  div_large : ∀ b c : K, 0 < c → ∃ a, b ≤ a / c
  /-- Sums of squares are not negative. -/
  sq_nonneg : ∀ a b : K, 0 ≤ a → 0 ≤ a + b * b
  /-- The default tolerances of the solvers are not negative. -/
  default_nonneg : (0 : K) ≤ 0.01 ∧ (0 : K) ≤ 0.0025

instance : RoundedLaws ℝ := ⟨by simp [fabs_abs], fun _ _ h => Int.cast_le.2 h, fun _ => by linarith, fun _ _ => by push_cast; ring,
  fun _ _ _ hc h => by gcongr, fun b c hc => ⟨b * c, by rw [mul_div_cancel_right₀ _ hc.ne']⟩,
  fun _ b h => add_nonneg h (mul_self_nonneg b), by norm_num⟩

end Isomesh
