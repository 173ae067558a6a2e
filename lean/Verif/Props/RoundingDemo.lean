import Verif.Props.RoundingRF
import Mathlib.Algebra.Order.Round

/-! Concrete cases for C73 and C74: `double` and `float` with rounding to nearest, a filled grid. -/

namespace Isomesh
open Spec Set

noncomputable section

theorem round_mono' : Monotone (round : ℝ → ℤ) := by
  intro x y h
  rw [round_eq, round_eq]
  exact Int.floor_mono (by linarith)

theorem round_near (y : ℝ) : |((round y : ℤ) : ℝ) - y| ≤ 1 / 2 := by
  rw [abs_sub_comm]; exact abs_sub_round y

/-- `double`, rounding to nearest, halves up. -/
def f64 : FloatFormat := binaryFormat 53 (by norm_num) round round_mono' (nearest_int round_near)
/-- `float`, rounding to nearest, halves up. -/
def f32 : FloatFormat := binaryFormat 24 (by norm_num) round round_mono' (nearest_int round_near)
/-- `double`, rounding down. -/
def f64down : FloatFormat := binaryFormat 53 (by norm_num) Int.floor Int.floor_mono Int.floor_intCast

example : RelError f64 (1 / 2 ^ 53) ∧ NoUnderflow f64 := ⟨RelError.nearest _ _ round_near, NoUnderflow.binary _ _ _⟩
example : RelError f32 (1 / 2 ^ 24) ∧ NoUnderflow f32 := ⟨RelError.nearest _ _ round_near, NoUnderflow.binary _ _ _⟩
example : NoUnderflow f64down := NoUnderflow.binary _ _ _

/-- The numbers of a format are really rounded: one third is not a `double`. -/
example : f64.fl (1 / 3) ≠ 1 / 3 := by
  intro h
  have h2 := nearest_eval (p := 53) (x := 1 / 3) round_near (k := -2) (m := 6004799503160661) (by norm_num) (by norm_num)
    (by norm_num [abs_lt])
  have h3 : f64.fl (1 / 3) = flBits 53 round (1 / 3) := rfl
  rw [h3, h2] at h
  norm_num at h

/-- Numbers of the demonstrations. -/
def n64 (n : ℤ) (h : |n| ≤ 2 ^ 24) : Fl f64 := ⟨n, f64.rep_int n h⟩

/-- A grid of 8 cells with step 3 at (2, 0, 0). -/
def roundGrid : Grid (Fl f64) :=
  { size := 2, half := 1, mat := List.replicate (dataSizeOf 2) none, edgeX := [], edgeY := [], edgeZ := [],
    globalPos := ⟨n64 2 (by norm_num), 0, 0⟩, step := n64 3 (by norm_num) }

theorem roundGrid_reachable : roundGrid.Reachable :=
  .mk (size := 2) (pos := ⟨n64 2 (by norm_num), 0, 0⟩) (step := n64 3 (by norm_num)) (by rfl)

/-- Solid where `x ≤ 3`. -/
def roundField : ScalarField (Fl f64) where
  value q := q.x - n64 3 (by norm_num)
  grad _ := ⟨1, 0, 0⟩
  material _ _ := .Stone

theorem f64_int {x : ℝ} (n : ℤ) (h : x = n) (hn : |n| ≤ 2 ^ 24) : f64.fl x = n := by
  rw [h]; exact Fl.fl_int f64 hn

/-- The grid can be filled, and the storages are not empty. -/
theorem roundGrid_filled : ∃ g', roundGrid.fill roundField (bisectionFinder 8) = some g' ∧
    ∃ e ∈ g'.edges .X, e.lesser = ⟨0, 0, 0⟩ := by
  obtain ⟨g', e, -⟩ := C73_fill_materials roundGrid_reachable roundField (bisectionFinder 8)
  refine ⟨g', e, _, ((C73_fill_edges roundGrid_reachable e .X).1 _).2 ⟨⟨0, 0, 0⟩, ?_, ?_, rfl⟩, rfl⟩
  · decide
  · have low : (worldPos roundGrid.globalPos roundGrid.step ⟨-1, -1, -1⟩).x.val = ((-1 : ℤ) : ℝ) := by
      have e1 : (((-1 : ℤ) : Fl f64)).val = ((-1 : ℤ) : ℝ) := Fl.val_int (by norm_num)
      have e2 : f64.fl ((((-1 : ℤ) : Fl f64)).val * 3) = ((-3 : ℤ) : ℝ) :=
        f64_int (-3) (by rw [e1]; norm_num) (by norm_num)
      show f64.fl (f64.fl ((((-1 : ℤ) : Fl f64)).val * ((3 : ℤ) : ℝ)) + ((2 : ℤ) : ℝ)) = _
      rw [show ((3 : ℤ) : ℝ) = 3 by norm_num, e2]
      exact f64_int (-1) (by norm_num) (by norm_num)
    have s1 : (stepped (worldPos roundGrid.globalPos roundGrid.step ⟨-1, -1, -1⟩).x roundGrid.step 1).val = ((2 : ℤ) : ℝ) := by
      show f64.fl ((worldPos roundGrid.globalPos roundGrid.step ⟨-1, -1, -1⟩).x.val + ((3 : ℤ) : ℝ)) = _
      rw [low]
      exact f64_int 2 (by norm_num) (by norm_num)
    have s2 : (stepped (worldPos roundGrid.globalPos roundGrid.step ⟨-1, -1, -1⟩).x roundGrid.step 2).val = ((5 : ℤ) : ℝ) := by
      show f64.fl ((stepped (worldPos roundGrid.globalPos roundGrid.step ⟨-1, -1, -1⟩).x roundGrid.step 1).val + ((3 : ℤ) : ℝ)) = _
      rw [s1]
      exact f64_int 5 (by norm_num) (by norm_num)
    have v1 : (roundField.value (samplePos roundGrid.globalPos roundGrid.step roundGrid.maxCoord ⟨0, 0, 0⟩)).val = ((-1 : ℤ) : ℝ) := by
      show f64.fl ((stepped (worldPos roundGrid.globalPos roundGrid.step ⟨-1, -1, -1⟩).x roundGrid.step 1).val - ((3 : ℤ) : ℝ)) = _
      rw [s1]
      exact f64_int (-1) (by norm_num) (by norm_num)
    have v2 : (roundField.value (samplePos roundGrid.globalPos roundGrid.step roundGrid.maxCoord
        (edgeEnd .X ⟨0, 0, 0⟩))).val = ((2 : ℤ) : ℝ) := by
      show f64.fl ((stepped (worldPos roundGrid.globalPos roundGrid.step ⟨-1, -1, -1⟩).x roundGrid.step 2).val - ((3 : ℤ) : ℝ)) = _
      rw [s2]
      exact f64_int 2 (by norm_num) (by norm_num)
    unfold Crosses
    rw [Fl.le_iff, Fl.le_iff, v1, v2, Fl.val_zero]
    norm_num

/-- The hypotheses of `C74_surface_point` hold for this grid, and the grid of this record is not empty. -/
example : ∃ g' e, roundGrid.fill roundField (bisectionFinder 8) = some g' ∧ e ∈ g'.edges .X ∧ 0 < roundGrid.step ∧
    |((worldPos roundGrid.globalPos roundGrid.step e.lesser).get .X).val| ≤ 2 ^ 28 * roundGrid.step.val ∧
    0 ≤ (e.narrow f32).offset ∧ (e.narrow f32).offset ≤ 1 := by
  obtain ⟨g', h, e, he, hl⟩ := roundGrid_filled
  have hpos : (0 : Fl f64) < roundGrid.step := by
    rw [Fl.lt_iff, Fl.val_zero]
    show (0 : ℝ) < ((3 : ℤ) : ℝ)
    norm_num
  have hbig : |((worldPos roundGrid.globalPos roundGrid.step e.lesser).get .X).val| ≤ 2 ^ 28 * roundGrid.step.val := by
    rw [hl]
    have e1 : (((0 : ℤ) : Fl f64)).val = ((0 : ℤ) : ℝ) := Fl.val_int (by norm_num)
    have e2 : f64.fl ((((0 : ℤ) : Fl f64)).val * ((3 : ℤ) : ℝ)) = ((0 : ℤ) : ℝ) :=
      f64_int 0 (by rw [e1]; norm_num) (by norm_num)
    have e3 : ((worldPos roundGrid.globalPos roundGrid.step ⟨0, 0, 0⟩).get .X).val = ((2 : ℤ) : ℝ) := by
      show f64.fl (f64.fl ((((0 : ℤ) : Fl f64)).val * ((3 : ℤ) : ℝ)) + ((2 : ℤ) : ℝ)) = _
      rw [e2]
      exact f64_int 2 (by norm_num) (by norm_num)
    rw [e3]
    show |((2 : ℤ) : ℝ)| ≤ 2 ^ 28 * ((3 : ℤ) : ℝ)
    norm_num
  have key := (C74_surface_point round_mono' round_near round_mono' round_near roundGrid_reachable h hpos he hbig).1
  exact ⟨g', e, h, he, hpos, hbig, key.1, key.2⟩

/-- Bisection on a segment from 0 to 4 with values -1 and 3 at its ends, 8 steps: the hypotheses of the accuracy theorem. -/
example : ∃ a b va vb : Fl f64, va.val * vb.val ≤ 0 ∧ |b.val - a.val| ≤ 4 / 2 ^ 8 + 2 * (1 / 2 ^ 53 * 4) ∧
    KnownValue roundField .X ⟨0, 0, 0⟩ 0 (n64 4 (by norm_num)) (n64 (-1) (by norm_num)) (n64 3 (by norm_num)) a va ∧
    KnownValue roundField .X ⟨0, 0, 0⟩ 0 (n64 4 (by norm_num)) (n64 (-1) (by norm_num)) (n64 3 (by norm_num)) b vb := by
  have h4 : (n64 4 (by norm_num)).val = 4 := by show ((4 : ℤ) : ℝ) = 4; norm_num
  obtain ⟨a, b, va, vb, -, -, ka, kb, h1, h2, -⟩ := C74_bisection_accuracy (F := f64) (NoUnderflow.binary _ _ _)
    (RelError.nearest _ _ round_near) (by norm_num) 8 .X ⟨0, 0, 0⟩ (n64 4 (by norm_num)) (n64 (-1) (by norm_num))
    (n64 3 (by norm_num)) roundField (M := 4) (by show |(0 : Fl f64).val| ≤ 4; rw [Fl.val_zero]; norm_num)
    (by rw [h4]; norm_num) (by show ((-1 : ℤ) : ℝ) * ((3 : ℤ) : ℝ) ≤ 0; norm_num)
  refine ⟨a, b, va, vb, h1, ?_, ka, kb⟩
  have e0 : ((⟨0, 0, 0⟩ : Vec3 (Fl f64)).get .X).val = 0 := Fl.val_zero
  rw [h4, e0] at h2
  have : stepCount 8 = 8 := rfl
  rw [this] at h2
  norm_num at h2 ⊢
  exact h2

/-- Regula falsi on a segment from 1 to 4 with values -1 and 3 at its ends, 8 steps. -/
example : ∃ m, rfFind 8 .X (1 : Fl f64) 0 0 (n64 4 (by norm_num)) (n64 (-1) (by norm_num)) (n64 3 (by norm_num)) roundField = some m ∧
    1 - 1 / 2 ^ 40 ≤ m.val ∧ m.val ≤ 4 + 1 / 2 ^ 40 := by
  have h4 : (n64 4 (by norm_num)).val = 4 := by show ((4 : ℤ) : ℝ) = 4; norm_num
  have e0 : ((⟨1, 0, 0⟩ : Vec3 (Fl f64)).get .X).val = 1 := Fl.val_one
  have h8 : stepCount 8 = 8 := rfl
  obtain ⟨l, m, -, hm, hl⟩ := C74_regula_falsi_near_segment (F := f64) (RelError.nearest _ _ round_near) (by norm_num)
    (by norm_num) 8 (by rw [h8]; norm_num) .X ⟨1, 0, 0⟩ (n64 4 (by norm_num)) (n64 (-1) (by norm_num))
    (n64 3 (by norm_num)) roundField (M := 4) (by rw [e0]; norm_num) (by rw [h4]; norm_num)
    (by show ((-1 : ℤ) : ℝ) * ((3 : ℤ) : ℝ) ≤ 0; norm_num) (by show ((-1 : ℤ) : ℝ) ≠ ((3 : ℤ) : ℝ); norm_num)
  have := hl m (Or.inl rfl)
  rw [h4, e0, h8] at this
  norm_num at this
  exact ⟨m, hm, by norm_num; linarith [this.1], by norm_num; linarith [this.2]⟩

/-- The sample positions of the grid above differ from the exact ones by less than 10^-13. -/
example (p : IVec3) (hp : InCube 1 p) :
    |((samplePos roundGrid.globalPos roundGrid.step 1 p).get .X).val - ((p.x : ℝ) * 3 + 2)| ≤ 1 / 10 ^ 13 := by
  have e3 : roundGrid.step.val = 3 := by show ((3 : ℤ) : ℝ) = 3; norm_num
  have e2 : (roundGrid.globalPos.get .X).val = 2 := by show ((2 : ℤ) : ℝ) = 2; norm_num
  have es : (roundGrid.size : ℝ) = 2 := by norm_num [roundGrid]
  have em : (roundGrid.maxCoord : ℝ) = 1 := by norm_num [roundGrid, Grid.maxCoord]
  have h := (C74_sample_drift (F := f64) (RelError.nearest _ _ round_near) (by norm_num) roundGrid_reachable
    (by rw [Fl.lt_iff, Fl.val_zero, e3]; norm_num) (by rw [es]; norm_num) (M := 5) .X
    (by rw [e2, e3, em]; norm_num) hp).1
  rw [e2, e3, es] at h
  refine le_trans h ?_
  norm_num

end
end Isomesh
