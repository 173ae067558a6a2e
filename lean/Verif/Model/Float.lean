import Verif.Basic
import Verif.Model.EdgeStorage
import Verif.Model.Grid
import Mathlib.Data.Real.Sqrt
import Mathlib.Data.Int.Log

/-! Rounded arithmetic: the `float` and `double` operations of C++ on numbers that are neither infinite nor NaN.

A format is a set of representable reals with a rounding function; every operation returns the rounded exact result.  All
IEEE 754 formats and rounding modes are of this kind as long as nothing overflows; underflow is allowed. -/

namespace Isomesh

noncomputable section
open scoped Classical

/-- A floating point format with a rounding mode. -/
structure FloatFormat where
  /-- The representable numbers. -/
  Rep : ℝ → Prop
  /-- Rounding. -/
  fl : ℝ → ℝ
  rep_fl : ∀ x, Rep (fl x)
  fl_rep : ∀ x, Rep x → fl x = x
  mono : Monotone fl
  rep_neg : ∀ x, Rep x → Rep (-x)
  rep_double : ∀ x, Rep x → Rep (2 * x)
  rep_half : Rep (1 / 2)
  /-- Integers up to 2^24 are representable. -/
  rep_int : ∀ n : ℤ, |n| ≤ 2 ^ 24 → Rep n

/-- The numbers of a format. -/
@[ext] structure Fl (F : FloatFormat) where
  val : ℝ
  rep : F.Rep val

namespace Fl
variable {F : FloatFormat}

/-- Rounding of a real number. -/
def round (F : FloatFormat) (x : ℝ) : Fl F := ⟨F.fl x, F.rep_fl x⟩

instance : LinearOrder (Fl F) := LinearOrder.lift' Fl.val (fun _ _ h => Fl.ext h)
instance : Add (Fl F) := ⟨fun a b => round F (a.val + b.val)⟩
instance : Sub (Fl F) := ⟨fun a b => round F (a.val - b.val)⟩
instance : Mul (Fl F) := ⟨fun a b => round F (a.val * b.val)⟩
/-- Division by zero does not occur in the theorems. -/
instance : Div (Fl F) := ⟨fun a b => round F (a.val / b.val)⟩
instance : Neg (Fl F) := ⟨fun a => ⟨-a.val, F.rep_neg _ a.rep⟩⟩
instance : IntCast (Fl F) := ⟨fun n => round F n⟩
instance : Zero (Fl F) := ⟨round F 0⟩
instance : One (Fl F) := ⟨round F 1⟩
instance : OfNat (Fl F) 2 := ⟨round F 2⟩
instance : NatCast (Fl F) := ⟨fun n => round F n⟩
/-- Decimal constants are rounded. -/
instance : OfScientific (Fl F) := ⟨fun m s e => round F (OfScientific.ofScientific m s e)⟩
instance : Fabs (Fl F) := ⟨fun a => if 0 ≤ a.val then a else -a⟩

theorem le_iff {a b : Fl F} : a ≤ b ↔ a.val ≤ b.val := Iff.rfl
theorem lt_iff {a b : Fl F} : a < b ↔ a.val < b.val := Iff.rfl
@[simp] theorem val_add (a b : Fl F) : (a + b).val = F.fl (a.val + b.val) := rfl
@[simp] theorem val_sub (a b : Fl F) : (a - b).val = F.fl (a.val - b.val) := rfl
@[simp] theorem val_mul (a b : Fl F) : (a * b).val = F.fl (a.val * b.val) := rfl
@[simp] theorem val_div (a b : Fl F) : (a / b).val = F.fl (a.val / b.val) := rfl
@[simp] theorem val_neg (a : Fl F) : (-a).val = -a.val := rfl

theorem fl_int (F : FloatFormat) {n : ℤ} (h : |n| ≤ 2 ^ 24) : F.fl n = n := F.fl_rep _ (F.rep_int n h)
theorem val_int {n : ℤ} (h : |n| ≤ 2 ^ 24) : ((n : Fl F)).val = n := fl_int F h
@[simp] theorem val_zero : (0 : Fl F).val = 0 := by
  have := fl_int F (n := 0) (by norm_num); exact_mod_cast this
@[simp] theorem val_one : (1 : Fl F).val = 1 := by
  have := fl_int F (n := 1) (by norm_num); exact_mod_cast this
@[simp] theorem val_two : (2 : Fl F).val = 2 := by
  have := fl_int F (n := 2) (by norm_num); exact_mod_cast this
@[simp] theorem val_half : (1 / 2 : Fl F).val = 1 / 2 := by
  rw [val_div, val_one, val_two]; exact F.fl_rep _ F.rep_half
@[simp] theorem val_fabs (a : Fl F) : (fabs a).val = |a.val| := by
  show (if 0 ≤ a.val then a else -a).val = _
  split_ifs with h
  · rw [abs_of_nonneg h]
  · rw [val_neg, abs_of_neg (not_le.1 h)]

/-- Conversion to another format, e.g. `float (offset)` (grid_edge_storage.cpp:29). -/
def narrow (G : FloatFormat) (a : Fl F) : Fl G := round G a.val

end Fl

/-- A record as it is kept: `offset` is converted from `double` to `float` (grid_edge_storage.cpp:29).  The gradient is
normalised before its conversion (grid_edge_storage.cpp:24-28, see EdgeNormal.lean); here its components are converted as they
are, no theorem about rounding uses them. -/
def GridEdge.narrow {F : FloatFormat} (G : FloatFormat) (e : GridEdge (Fl F)) : GridEdge (Fl G) :=
  ⟨e.lesser, ⟨e.gradient.x.narrow G, e.gradient.y.narrow G, e.gradient.z.narrow G⟩, e.offset.narrow G, e.axis, e.lesserSolid,
    e.material⟩

/-- A grid as the meshing algorithms see it: they compute in `float` with records that hold `float` numbers
(grid_edge_storage.hpp:59-63), while `fill` computes positions in `double`.  `localToGlobal` is not used by them, so the conversion of
position and step is immaterial. -/
def Grid.narrow {F : FloatFormat} (G : FloatFormat) (g : Grid (Fl F)) : Grid (Fl G) :=
  { size := g.size, half := g.half, mat := g.mat, edgeX := g.edgeX.map (GridEdge.narrow G), edgeY := g.edgeY.map (GridEdge.narrow G),
    edgeZ := g.edgeZ.map (GridEdge.narrow G),
    globalPos := ⟨g.globalPos.x.narrow G, g.globalPos.y.narrow G, g.globalPos.z.narrow G⟩, step := g.step.narrow G }

/-! ### Binary formats -/

/-- The unit in the last place of a `p`-bit number of the size of `x`. -/
def ulp (p : Nat) (x : ℝ) : ℝ := (2 : ℝ) ^ (Int.log 2 |x| + 1 - p)

/-- Rounding to `p` bits; `r` rounds to an integer. -/
def flBits (p : Nat) (r : ℝ → ℤ) (x : ℝ) : ℝ := if x = 0 then 0 else r (x / ulp p x) * ulp p x

/-- Numbers with at most `p` bits. -/
def RepBits (p : Nat) (x : ℝ) : Prop := ∃ m e : ℤ, |m| ≤ 2 ^ p ∧ x = m * 2 ^ e

end
end Isomesh
