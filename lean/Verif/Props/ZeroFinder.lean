import Verif.Model.ZeroFinder
import Verif.Props.Grid
import Mathlib.Topology.Order.IntermediateValue
import Mathlib.Topology.Instances.Real.Lemmas
import Mathlib.Data.Real.Archimedean

/-! Properties C11–C13: zero finders. -/

set_option linter.unusedSectionVars false

namespace Isomesh
open Spec Set

section
variable {K : Type} [Field K] [LinearOrder K] [IsStrictOrderedRing K]

@[simp] theorem Vec3.set_set (p : Vec3 K) (C : Axis) (a b : K) : (p.set C a).set C b = p.set C b := by
  cases C <;> rfl

@[simp] theorem Vec3.get_set (p : Vec3 K) (C : Axis) (a : K) : (p.set C a).get C = a := by cases C <;> rfl

@[simp] theorem Vec3.set_get (p : Vec3 K) (C : Axis) : p.set C (p.get C) = p := by cases C <;> rfl

theorem bisectLoop_p (f : ScalarField K) (C : Axis) (p : Vec3 K) (a : K) (n : Nat) (c0 c1 f0 f1 : K) :
    bisectLoop f C (p.set C a) n c0 c1 f0 f1 = bisectLoop f C p n c0 c1 f0 f1 := by
  cases n with
  | zero => rfl
  | succ n => simp only [fabs_abs, bisectLoop, Vec3.set_set]

theorem mid_mem (c0 c1 : K) : (c0 + c1) * (1 / 2) ∈ uIcc c0 c1 := by
  rw [mem_uIcc]
  rcases le_total c0 c1 with h | h
  · left; constructor <;> linarith
  · right; constructor <;> linarith

theorem uIcc_sub {a b m r : K} (hm : m ∈ uIcc a b) : (r ∈ uIcc m b → r ∈ uIcc a b) ∧ (r ∈ uIcc a m → r ∈ uIcc a b) :=
  ⟨fun h => uIcc_subset_uIcc hm right_mem_uIcc h, fun h => uIcc_subset_uIcc left_mem_uIcc hm h⟩

theorem bisectLoop_mem (f : ScalarField K) (C : Axis) (p : Vec3 K) (n : Nat) (c0 c1 f0 f1 : K) :
    bisectLoop f C p n c0 c1 f0 f1 ∈ uIcc c0 c1 := by
  induction n generalizing p c0 c1 f0 f1 with
  | zero => simp only [fabs_abs, bisectLoop]; split_ifs <;> simp
  | succ n ih =>
    simp only [fabs_abs, bisectLoop]
    have hm := mid_mem c0 c1
    split_ifs
    · exact (uIcc_sub hm).1 (ih _ _ _ _ _)
    · exact (uIcc_sub hm).2 (ih _ _ _ _ _)
    · exact hm
    · simp
    · simp

/-- C11: the bisection result never leaves the segment, whatever the field (no continuity needed), the given values,
and the iteration count. -/
theorem C11_in_segment (steps : Int) (C : Axis) (x0 y0 z0 c1 f0 f1 : K) (f : ScalarField K) :
    bisectFind steps C x0 y0 z0 c1 f0 f1 f ∈ uIcc ((⟨x0, y0, z0⟩ : Vec3 K).get C) c1 :=
  bisectLoop_mem _ _ _ _ _ _ _ _

end

theorem bisectLoop_root (f : ScalarField ℝ) (C : Axis) (p : Vec3 ℝ) (n : Nat) (c0 c1 : ℝ)
    (hcont : ContinuousOn (fun c => f.value (p.set C c)) (uIcc c0 c1))
    (hsign : f.value (p.set C c0) * f.value (p.set C c1) ≤ 0) :
    ∃ z ∈ uIcc c0 c1, f.value (p.set C z) = 0 ∧
      |bisectLoop f C p n c0 c1 (f.value (p.set C c0)) (f.value (p.set C c1)) - z| ≤ |c1 - c0| / 2 ^ n := by
  induction n generalizing c0 c1 with
  | zero =>
    have h0 : (0 : ℝ) ∈ uIcc (f.value (p.set C c0)) (f.value (p.set C c1)) := by
      rw [mem_uIcc]
      rcases mul_nonpos_iff.1 hsign with h | h
      · right; exact ⟨h.2, h.1⟩
      · left; exact h
    obtain ⟨z, hz, hz0⟩ := intermediate_value_uIcc hcont h0
    refine ⟨z, hz, hz0, ?_⟩
    have hr := bisectLoop_mem f C p 0 c0 c1 (f.value (p.set C c0)) (f.value (p.set C c1))
    rw [pow_zero, div_one]
    exact abs_sub_le_of_uIcc_subset_uIcc (uIcc_subset_uIcc hz hr) |>.trans (by rw [abs_sub_comm])
  | succ n ih =>
    have hm := mid_mem c0 c1
    set mid := (c0 + c1) * (1 / 2) with hmid
    simp only [fabs_abs, bisectLoop, ← hmid, bisectLoop_p]
    have w1 : |c1 - mid| / 2 ^ n = |c1 - c0| / 2 ^ (n + 1) := by
      have : c1 - mid = (c1 - c0) / 2 := by rw [hmid]; ring
      rw [this, abs_div, abs_two, pow_succ]; field_simp
    have w2 : |mid - c0| / 2 ^ n = |c1 - c0| / 2 ^ (n + 1) := by
      have : mid - c0 = (c1 - c0) / 2 := by rw [hmid]; ring
      rw [this, abs_div, abs_two, pow_succ]; field_simp
    set v := f.value (p.set C mid) with hv
    set a := f.value (p.set C c0) with ha
    set b := f.value (p.set C c1) with hb
    have hpos : (0 : ℝ) ≤ |c1 - c0| / 2 ^ (n + 1) := by positivity
    split_ifs with h1 h2 h3 h4
    · obtain ⟨z, hz, hz0, hz1⟩ := ih mid c1 (hcont.mono (uIcc_subset_uIcc hm right_mem_uIcc)) (by
        rw [← hv, ← hb]
        rcases mul_pos_iff.1 h1 with h | h <;> rcases mul_nonpos_iff.1 hsign with h' | h' <;> nlinarith [h.1, h.2, h'.1, h'.2])
      exact ⟨z, (uIcc_sub hm).1 hz, hz0, by rw [← w1]; exact hz1⟩
    · obtain ⟨z, hz, hz0, hz1⟩ := ih c0 mid (hcont.mono (uIcc_subset_uIcc left_mem_uIcc hm)) (by
        rw [← hv, ← ha]
        rcases mul_pos_iff.1 h2 with h | h <;> rcases mul_nonpos_iff.1 hsign with h' | h' <;> nlinarith [h.1, h.2, h'.1, h'.2])
      exact ⟨z, (uIcc_sub hm).2 hz, hz0, by rw [← w2]; exact hz1⟩
    all_goals
      -- early exit: the returned point is an exact zero
      have h1' : v * a ≤ 0 := not_lt.1 h1
      have h2' : v * b ≤ 0 := not_lt.1 h2
      have hcase : v = 0 ∨ a = 0 ∨ b = 0 := by
        by_contra hne
        push Not at hne
        obtain ⟨hv0, ha0, hb0⟩ := hne
        have hva : v * a < 0 := lt_of_le_of_ne h1' (mul_ne_zero hv0 ha0)
        have hvb : v * b < 0 := lt_of_le_of_ne h2' (mul_ne_zero hv0 hb0)
        have k1 := mul_pos_of_neg_of_neg hva hvb
        have k2 : v * a * (v * b) = v * v * (a * b) := by ring
        have k3 : v * v * (a * b) ≤ 0 := mul_nonpos_of_nonneg_of_nonpos (mul_self_nonneg v) hsign
        linarith
    · have : v = 0 := by
        rcases hcase with h | h | h
        · exact h
        · rw [h, abs_zero] at h3
          exact abs_nonpos_iff.1 (h3.trans (min_le_left _ _))
        · rw [h, abs_zero] at h3
          exact abs_nonpos_iff.1 (h3.trans (min_le_right _ _))
      exact ⟨mid, hm, by rw [← hv]; exact this, by simpa using hpos⟩
    · have : a = 0 := by
        rcases hcase with h | h | h
        · exfalso; apply h3; rw [h, abs_zero]; exact le_min (abs_nonneg _) (abs_nonneg _)
        · exact h
        · rw [h, abs_zero] at h4; exact abs_nonpos_iff.1 h4
      exact ⟨c0, left_mem_uIcc, by rw [← ha]; exact this, by simpa using hpos⟩
    · have : b = 0 := by
        rcases hcase with h | h | h
        · exfalso; apply h3; rw [h, abs_zero]; exact le_min (abs_nonneg _) (abs_nonneg _)
        · exfalso; apply h4; rw [h, abs_zero]; exact abs_nonneg _
        · exact h
      exact ⟨c1, right_mem_uIcc, by rw [← hb]; exact this, by simpa using hpos⟩

theorem bisectLoop_bracket {K : Type} [Field K] [LinearOrder K] [IsStrictOrderedRing K] (f : ScalarField K) (C : Axis)
    (p : Vec3 K) (n : Nat) (c0 c1 : K) (hsign : f.value (p.set C c0) * f.value (p.set C c1) ≤ 0) :
    ∃ a b r, bisectLoop f C p n c0 c1 (f.value (p.set C c0)) (f.value (p.set C c1)) = r ∧
      a ∈ uIcc c0 c1 ∧ b ∈ uIcc c0 c1 ∧ |b - a| ≤ |c1 - c0| / 2 ^ n ∧
      f.value (p.set C a) * f.value (p.set C b) ≤ 0 ∧ (r = a ∨ r = b) ∧
      |f.value (p.set C r)| ≤ |f.value (p.set C a)| ∧ |f.value (p.set C r)| ≤ |f.value (p.set C b)| := by
  induction n generalizing c0 c1 with
  | zero =>
    refine ⟨c0, c1, _, rfl, left_mem_uIcc, right_mem_uIcc, by simp, hsign, ?_, ?_⟩
    · simp only [fabs_abs, bisectLoop]; split_ifs <;> simp
    · simp only [fabs_abs, bisectLoop]
      split_ifs with h
      · exact ⟨le_rfl, h⟩
      · exact ⟨(not_le.1 h).le, le_rfl⟩
  | succ n ih =>
    have hm := mid_mem c0 c1
    set mid := (c0 + c1) * (1 / 2) with hmid
    simp only [fabs_abs, bisectLoop, ← hmid, bisectLoop_p]
    have w1 : |c1 - mid| / 2 ^ n = |c1 - c0| / 2 ^ (n + 1) := by
      have : c1 - mid = (c1 - c0) / 2 := by rw [hmid]; ring
      rw [this, abs_div, abs_two, pow_succ]; field_simp
    have w2 : |mid - c0| / 2 ^ n = |c1 - c0| / 2 ^ (n + 1) := by
      have : mid - c0 = (c1 - c0) / 2 := by rw [hmid]; ring
      rw [this, abs_div, abs_two, pow_succ]; field_simp
    set v := f.value (p.set C mid) with hv
    set x := f.value (p.set C c0) with hx
    set y := f.value (p.set C c1) with hy
    have hpos : (0 : K) ≤ |c1 - c0| / 2 ^ (n + 1) := by positivity
    split_ifs with h1 h2 h3 h4
    · obtain ⟨a, b, r, e, ha, hb, hw, hs⟩ := ih mid c1 (by
        rw [← hv, ← hy]
        rcases mul_pos_iff.1 h1 with h | h <;> rcases mul_nonpos_iff.1 hsign with h' | h' <;>
          nlinarith [h.1, h.2, h'.1, h'.2])
      exact ⟨a, b, r, e, (uIcc_sub hm).1 ha, (uIcc_sub hm).1 hb, w1 ▸ hw, hs⟩
    · obtain ⟨a, b, r, e, ha, hb, hw, hs⟩ := ih c0 mid (by
        rw [← hv, ← hx]
        rcases mul_pos_iff.1 h2 with h | h <;> rcases mul_nonpos_iff.1 hsign with h' | h' <;>
          nlinarith [h.1, h.2, h'.1, h'.2])
      exact ⟨a, b, r, e, (uIcc_sub hm).2 ha, (uIcc_sub hm).2 hb, w2 ▸ hw, hs⟩
    all_goals
      have h1' : v * x ≤ 0 := not_lt.1 h1
      have h2' : v * y ≤ 0 := not_lt.1 h2
      have hcase : v = 0 ∨ x = 0 ∨ y = 0 := by
        by_contra hne
        push Not at hne
        obtain ⟨hv0, ha0, hb0⟩ := hne
        have hva : v * x < 0 := lt_of_le_of_ne h1' (mul_ne_zero hv0 ha0)
        have hvb : v * y < 0 := lt_of_le_of_ne h2' (mul_ne_zero hv0 hb0)
        have k1 := mul_pos_of_neg_of_neg hva hvb
        have k2 : v * x * (v * y) = v * v * (x * y) := by ring
        have k3 : v * v * (x * y) ≤ 0 := mul_nonpos_of_nonneg_of_nonpos (mul_self_nonneg v) hsign
        linarith
    · have : v = 0 := by
        rcases hcase with h | h | h
        · exact h
        · rw [h, abs_zero] at h3
          exact abs_nonpos_iff.1 (h3.trans (min_le_left _ _))
        · rw [h, abs_zero] at h3
          exact abs_nonpos_iff.1 (h3.trans (min_le_right _ _))
      exact ⟨mid, mid, mid, rfl, hm, hm, by simpa using hpos, by rw [← hv, this]; simp, Or.inl rfl, le_rfl, le_rfl⟩
    · have : x = 0 := by
        rcases hcase with h | h | h
        · exfalso; apply h3; rw [h, abs_zero]; exact le_min (abs_nonneg _) (abs_nonneg _)
        · exact h
        · rw [h, abs_zero] at h4; exact abs_nonpos_iff.1 h4
      exact ⟨c0, c0, c0, rfl, left_mem_uIcc, left_mem_uIcc, by simpa using hpos, by rw [← hx, this]; simp, Or.inl rfl,
        le_rfl, le_rfl⟩
    · have : y = 0 := by
        rcases hcase with h | h | h
        · exfalso; apply h3; rw [h, abs_zero]; exact le_min (abs_nonneg _) (abs_nonneg _)
        · exfalso; apply h4; rw [h, abs_zero]; exact abs_nonneg _
        · exact h
      exact ⟨c1, c1, c1, rfl, right_mem_uIcc, right_mem_uIcc, by simpa using hpos, by rw [← hy, this]; simp, Or.inl rfl,
        le_rfl, le_rfl⟩

/-- C11: for any field, continuous or not, the result is one end of a final bracket of width at most `|width| / 2^n`
inside the segment, whose ends have field values of non-equal sign, and it is the end where the field is closer to
zero. -/
theorem C11_better_end {K : Type} [Field K] [LinearOrder K] [IsStrictOrderedRing K] (steps : Int) (C : Axis)
    (x0 y0 z0 c1 : K) (f : ScalarField K)
    (hsign : f.value ⟨x0, y0, z0⟩ * f.value ((⟨x0, y0, z0⟩ : Vec3 K).set C c1) ≤ 0) :
    ∃ a b r, bisectFind steps C x0 y0 z0 c1 (f.value ⟨x0, y0, z0⟩) (f.value ((⟨x0, y0, z0⟩ : Vec3 K).set C c1)) f = r ∧
      a ∈ uIcc ((⟨x0, y0, z0⟩ : Vec3 K).get C) c1 ∧ b ∈ uIcc ((⟨x0, y0, z0⟩ : Vec3 K).get C) c1 ∧
      |b - a| ≤ |c1 - (⟨x0, y0, z0⟩ : Vec3 K).get C| / 2 ^ stepCount steps ∧
      f.value ((⟨x0, y0, z0⟩ : Vec3 K).set C a) * f.value ((⟨x0, y0, z0⟩ : Vec3 K).set C b) ≤ 0 ∧ (r = a ∨ r = b) ∧
      |f.value ((⟨x0, y0, z0⟩ : Vec3 K).set C r)| ≤ |f.value ((⟨x0, y0, z0⟩ : Vec3 K).set C a)| ∧
      |f.value ((⟨x0, y0, z0⟩ : Vec3 K).set C r)| ≤ |f.value ((⟨x0, y0, z0⟩ : Vec3 K).set C b)| := by
  have := bisectLoop_bracket f C ⟨x0, y0, z0⟩ (stepCount steps) ((⟨x0, y0, z0⟩ : Vec3 K).get C) c1 (by simpa using hsign)
  simpa [bisectFind] using this

/-- C11: for a field continuous on the segment, with endpoint values of non-equal sign (the documented precondition
`f0 * f1 <= 0`), the bisection result is within `|width| / 2^n` of a true zero of the field on the segment, where `n`
is the effective step count. `f0` and `f1` must be the field values at the endpoints, as documented. -/
theorem C11_bisection (steps : Int) (C : Axis) (x0 y0 z0 c1 : ℝ) (f : ScalarField ℝ)
    (hcont : ContinuousOn (fun c => f.value ((⟨x0, y0, z0⟩ : Vec3 ℝ).set C c)) (uIcc ((⟨x0, y0, z0⟩ : Vec3 ℝ).get C) c1))
    (hsign : f.value ⟨x0, y0, z0⟩ * f.value ((⟨x0, y0, z0⟩ : Vec3 ℝ).set C c1) ≤ 0) :
    ∃ z ∈ uIcc ((⟨x0, y0, z0⟩ : Vec3 ℝ).get C) c1, f.value ((⟨x0, y0, z0⟩ : Vec3 ℝ).set C z) = 0 ∧
      |bisectFind steps C x0 y0 z0 c1 (f.value ⟨x0, y0, z0⟩) (f.value ((⟨x0, y0, z0⟩ : Vec3 ℝ).set C c1)) f - z|
        ≤ |c1 - (⟨x0, y0, z0⟩ : Vec3 ℝ).get C| / 2 ^ stepCount steps := by
  have := bisectLoop_root f C ⟨x0, y0, z0⟩ (stepCount steps) ((⟨x0, y0, z0⟩ : Vec3 ℝ).get C) c1 hcont
    (by simpa using hsign)
  simpa [bisectFind] using this

section
variable {K : Type} [Field K] [LinearOrder K] [IsStrictOrderedRing K]

/-- C11 + C07: in a grid filled with the bisection solver all stored offsets are in [0, 1]. -/
theorem C11_filled_grid_offset {g g' : Grid K} (hg : g.Reachable) (hstep : 0 < g.step) {f : ScalarField K} {steps : Int}
    (h : g.fill f (bisectionFinder steps) = some g') (D : Axis) (e : GridEdge K) (he : e ∈ g'.edges D) :
    0 ≤ e.offset ∧ e.offset ≤ 1 := by
  obtain ⟨p, _, _, rfl⟩ := ((C07_fill_edges hg h D).1 e).1 he
  apply C07_offset hstep
  have hle : (worldPos g.globalPos g.step p).get D ≤ (worldPos g.globalPos g.step (edgeEnd D p)).get D := by
    cases D <;> simp [worldPos, edgeEnd, shift, Vec3.get] <;> nlinarith
  have key : crossingCoord f (bisectionFinder steps) (worldPos g.globalPos g.step) D p ∈
      uIcc ((worldPos g.globalPos g.step p).get D) ((worldPos g.globalPos g.step (edgeEnd D p)).get D) := by
    cases D
    · exact C11_in_segment steps .X _ _ _ _ _ _ f
    · exact C11_in_segment steps .Y _ _ _ _ _ _ f
    · exact C11_in_segment steps .Z _ _ _ _ _ _ f
  rw [uIcc_of_le hle] at key
  exact key

end

/-- Non-vacuity for C11: a continuous field that changes sign on the segment from (0,0,0) to (0,3,0). -/
example : ∃ f : ScalarField ℝ,
    ContinuousOn (fun c => f.value ((⟨0, 0, 0⟩ : Vec3 ℝ).set .Y c)) (uIcc ((⟨0, 0, 0⟩ : Vec3 ℝ).get .Y) 3) ∧
    f.value ⟨0, 0, 0⟩ * f.value ((⟨0, 0, 0⟩ : Vec3 ℝ).set .Y 3) ≤ 0 := by
  refine ⟨⟨fun p => p.y * p.y - 2, fun _ => ⟨0, 1, 0⟩, fun _ _ => .Solid⟩, ?_, ?_⟩
  · simp only [Vec3.set]; fun_prop
  · norm_num [Vec3.set]

/-! ### C12 -/

section
variable {K : Type} [Field K] [LinearOrder K] [IsStrictOrderedRing K]

theorem rfLoop_p (f : ScalarField K) (C : Axis) (p : Vec3 K) (a : K) (n : Nat) (side : RFSide) (c0 c1 f0 f1 : K) :
    rfLoop f C (p.set C a) n side c0 c1 f0 f1 = rfLoop f C p n side c0 c1 f0 f1 := by
  cases n with
  | zero => rfl
  | succ n => simp only [rfLoop, Vec3.set_set]

theorem rf_ne {f0 f1 : K} (h : f0 * f1 < 0) : f1 - f0 ≠ 0 := by
  intro h0
  have : f1 = f0 := by linarith
  rw [this] at h
  nlinarith [mul_self_nonneg f0]

/-- Strictly between. -/
def StrictBetween (a b r : K) : Prop := (a < r ∧ r < b) ∨ (b < r ∧ r < a)

theorem rf_mid_between {c0 c1 f0 f1 : K} (hc : c0 ≠ c1) (h : f0 * f1 < 0) :
    StrictBetween c0 c1 ((c0 * f1 - c1 * f0) / (f1 - f0)) := by
  have hne := rf_ne h
  have key : ∃ t : K, 0 < t ∧ t < 1 ∧ (c0 * f1 - c1 * f0) / (f1 - f0) = (1 - t) * c0 + t * c1 := by
    refine ⟨-f0 / (f1 - f0), ?_, ?_, ?_⟩
    · rcases mul_neg_iff.1 h with ⟨h0, h1⟩ | ⟨h0, h1⟩
      · apply div_pos_of_neg_of_neg <;> linarith
      · apply div_pos <;> linarith
    · rcases mul_neg_iff.1 h with ⟨h0, h1⟩ | ⟨h0, h1⟩
      · rw [div_lt_one_of_neg (by linarith)]; linarith
      · rw [div_lt_one (by linarith)]; linarith
    · field_simp; ring
  obtain ⟨t, h0, h1, e⟩ := key
  rw [e]
  rcases lt_or_gt_of_ne hc with hc | hc
  · left; constructor <;> nlinarith
  · right; constructor <;> nlinarith

theorem rf_factor {f0 val : K} :
    0 < (if 1 - val / f0 ≤ 0 then 1 / 2 else 1 - val / f0) := by
  split_ifs with hm
  · norm_num
  · exact not_le.1 hm

theorem StrictBetween.trans_left {a b m r : K} (hm : StrictBetween a b m) (hr : StrictBetween m b r) :
    StrictBetween a b r := by
  unfold StrictBetween at *
  rcases hm with hm | hm <;> rcases hr with hr | hr
  · left; exact ⟨hm.1.trans hr.1, hr.2⟩
  · exact absurd (hr.1.trans hr.2) (by linarith [hm.2])
  · exact absurd (hr.1.trans hr.2) (by linarith [hm.1])
  · right; exact ⟨hr.1, hr.2.trans hm.2⟩

theorem StrictBetween.trans_right {a b m r : K} (hm : StrictBetween a b m) (hr : StrictBetween a m r) :
    StrictBetween a b r := by
  unfold StrictBetween at *
  rcases hm with hm | hm <;> rcases hr with hr | hr
  · left; exact ⟨hr.1, hr.2.trans hm.2⟩
  · exact absurd (hr.1.trans hr.2) (by linarith [hm.1])
  · exact absurd (hr.1.trans hr.2) (by linarith [hm.2])
  · right; exact ⟨hm.1.trans hr.1, hr.2⟩

theorem StrictBetween.ne {a b m : K} (h : StrictBetween a b m) : m ≠ a ∧ m ≠ b := by
  rcases h with h | h <;> exact ⟨by rintro rfl; simp at h, by rintro rfl; simp at h⟩

/-- Facts about the list of sample points. -/
structure RFGood (f : ScalarField K) (C : Axis) (p : Vec3 K) (n : Nat) (c0 c1 : K) (l : List K) : Prop where
  len : l.length ≤ n
  pos : 0 < n → l ≠ []
  between : ∀ r ∈ l, StrictBetween c0 c1 r
  nodup : l.Nodup
  nonzero : ∀ r ∈ l.dropLast, f.value (p.set C r) ≠ 0
  early : l.length < n → ∃ r, l.getLast? = some r ∧ f.value (p.set C r) = 0

theorem RFGood.cons {f : ScalarField K} {C : Axis} {p : Vec3 K} {n : Nat} {c0 c1 m : K} {l : List K}
    (hm : StrictBetween c0 c1 m) (hv : f.value (p.set C m) ≠ 0)
    (hl : RFGood f C p n m c1 l ∨ RFGood f C p n c0 m l) : RFGood f C p (n + 1) c0 c1 (m :: l) := by
  have hb : ∀ r ∈ l, StrictBetween c0 c1 r ∧ r ≠ m := by
    intro r hr
    rcases hl with h | h
    · exact ⟨hm.trans_left (h.between r hr), (h.between r hr).ne.1⟩
    · exact ⟨hm.trans_right (h.between r hr), (h.between r hr).ne.2⟩
  have hlen : l.length ≤ n := by rcases hl with h | h <;> exact h.len
  have hpos : 0 < n → l ≠ [] := by rcases hl with h | h <;> exact h.pos
  have hnd : l.Nodup := by rcases hl with h | h <;> exact h.nodup
  have hnz : ∀ r ∈ l.dropLast, f.value (p.set C r) ≠ 0 := by rcases hl with h | h <;> exact h.nonzero
  have hea : l.length < n → ∃ r, l.getLast? = some r ∧ f.value (p.set C r) = 0 := by
    rcases hl with h | h <;> exact h.early
  refine ⟨by simp [hlen], by simp, ?_, ?_, ?_, ?_⟩
  · intro r hr
    rcases List.mem_cons.1 hr with rfl | hr
    · exact hm
    · exact (hb r hr).1
  · rw [List.nodup_cons]
    exact ⟨fun h => (hb m h).2 rfl, hnd⟩
  · cases l with
    | nil => simp
    | cons a t =>
      intro r hr
      rw [List.dropLast_cons_of_ne_nil (by simp)] at hr
      rcases List.mem_cons.1 hr with rfl | hr
      · exact hv
      · exact hnz r hr
  · intro h
    have h' : l.length < n := by simpa using h
    obtain ⟨r, e, hr⟩ := hea h'
    refine ⟨r, ?_, hr⟩
    rw [List.getLast?_cons, e]; rfl

theorem rfLoop_good (f : ScalarField K) (C : Axis) (p : Vec3 K) (n : Nat) (side : RFSide) (c0 c1 f0 f1 : K)
    (hc : c0 ≠ c1) (h : f0 * f1 < 0) :
    ∃ l, rfLoop f C p n side c0 c1 f0 f1 = some l ∧ RFGood f C p n c0 c1 l := by
  induction n generalizing p side c0 c1 f0 f1 with
  | zero => exact ⟨[], rfl, ⟨by simp, by simp, by simp, by simp, by simp, by simp⟩⟩
  | succ n ih =>
    have hm := rf_mid_between hc h
    simp only [rfLoop, if_neg (rf_ne h), rfLoop_p]
    set mid := (c0 * f1 - c1 * f0) / (f1 - f0) with hmid
    set v := f.value (p.set C mid) with hv
    by_cases h1 : v * f0 > 0
    · rw [if_pos h1]
      have hv0 : v ≠ 0 := by rintro e; rw [e] at h1; simp at h1
      have hneg : ∀ m : K, 0 < m → v * (f1 * m) < 0 := by
        intro m hm0
        have a1 : v * f1 < 0 := by
          rcases mul_pos_iff.1 h1 with ⟨x, y⟩ | ⟨x, y⟩ <;> rcases mul_neg_iff.1 h with ⟨u, w⟩ | ⟨u, w⟩
          · exact mul_neg_of_pos_of_neg x w
          · linarith
          · linarith
          · exact mul_neg_of_neg_of_pos x w
        have : v * (f1 * m) = v * f1 * m := by ring
        rw [this]; exact mul_neg_of_neg_of_pos a1 hm0
      obtain ⟨l, e, hl⟩ := ih p .lo mid c1 v (if side = .lo then f1 * (if 1 - v / f0 ≤ 0 then 1 / 2 else 1 - v / f0) else f1)
        hm.ne.2 (by
          split_ifs with hs hq
          · exact hneg _ (by norm_num)
          · exact hneg _ (not_le.1 hq)
          · simpa using hneg 1 one_pos)
      rw [e]
      exact ⟨mid :: l, rfl, .cons hm hv0 (Or.inl hl)⟩
    · rw [if_neg h1]
      by_cases h2 : v * f1 > 0
      · rw [if_pos h2]
        have hv0 : v ≠ 0 := by rintro e; rw [e] at h2; simp at h2
        have hneg : ∀ m : K, 0 < m → f0 * m * v < 0 := by
          intro m hm0
          have a1 : f0 * v < 0 := by
            rcases mul_pos_iff.1 h2 with ⟨x, y⟩ | ⟨x, y⟩ <;> rcases mul_neg_iff.1 h with ⟨u, w⟩ | ⟨u, w⟩
            · linarith
            · exact mul_neg_of_neg_of_pos u x
            · exact mul_neg_of_pos_of_neg u x
            · linarith
          have : f0 * m * v = f0 * v * m := by ring
          rw [this]; exact mul_neg_of_neg_of_pos a1 hm0
        obtain ⟨l, e, hl⟩ := ih p .hi c0 mid (if side = .hi then f0 * (if 1 - v / f1 ≤ 0 then 1 / 2 else 1 - v / f1) else f0) v
          hm.ne.1.symm (by
            split_ifs with hs hq
            · exact hneg _ (by norm_num)
            · exact hneg _ (not_le.1 hq)
            · simpa using hneg 1 one_pos)
        rw [e]
        exact ⟨mid :: l, rfl, .cons hm hv0 (Or.inr hl)⟩
      · rw [if_neg h2]
        have hv0 : v = 0 := by
          by_contra hv0
          have hf0 : f0 ≠ 0 := by rintro rfl; simp at h
          have hf1 : f1 ≠ 0 := by rintro rfl; simp at h
          have a1 : v * f0 < 0 := lt_of_le_of_ne (not_lt.1 h1) (mul_ne_zero hv0 hf0)
          have a2 : v * f1 < 0 := lt_of_le_of_ne (not_lt.1 h2) (mul_ne_zero hv0 hf1)
          have k1 := mul_pos_of_neg_of_neg a1 a2
          have k2 : v * f0 * (v * f1) = v * v * (f0 * f1) := by ring
          have k3 : v * v * (f0 * f1) ≤ 0 := mul_nonpos_of_nonneg_of_nonpos (mul_self_nonneg v) h.le
          linarith
        refine ⟨[mid], rfl, ⟨by simp, by simp, ?_, by simp, by simp, ?_⟩⟩
        · intro r hr; simp only [List.mem_singleton] at hr; rw [hr]; exact hm
        · intro _; exact ⟨mid, rfl, by rw [← hv]; exact hv0⟩

/-- C12: with endpoint values of strictly opposite signs, regula falsi never divides by zero, evaluates the field at
between one and `n` points (`n` the effective step count), all strictly inside the segment and pairwise different, and
returns the last of them; if it stops before using all steps the returned point is an exact zero, and no earlier point
was a zero. -/
theorem C12_regula_falsi (steps : Int) (C : Axis) (x0 y0 z0 c1 f0 f1 : K) (f : ScalarField K)
    (hc : (⟨x0, y0, z0⟩ : Vec3 K).get C ≠ c1) (h : f0 * f1 < 0) :
    ∃ l r, rfSamples steps C x0 y0 z0 c1 f0 f1 f = some l ∧ rfFind steps C x0 y0 z0 c1 f0 f1 f = some r ∧
      l.getLast? = some r ∧ 1 ≤ l.length ∧ l.length ≤ stepCount steps ∧ l.Nodup ∧
      (∀ s ∈ l, min ((⟨x0, y0, z0⟩ : Vec3 K).get C) c1 < s ∧ s < max ((⟨x0, y0, z0⟩ : Vec3 K).get C) c1) ∧
      (∀ s ∈ l.dropLast, f.value ((⟨x0, y0, z0⟩ : Vec3 K).set C s) ≠ 0) ∧
      (l.length < stepCount steps → f.value ((⟨x0, y0, z0⟩ : Vec3 K).set C r) = 0) := by
  obtain ⟨l, e, hl⟩ := rfLoop_good f C ⟨x0, y0, z0⟩ (stepCount steps) .none _ c1 f0 f1 hc h
  have hn : 0 < stepCount steps := by unfold stepCount; omega
  have hne := hl.pos hn
  refine ⟨l, l.getLast hne, e, ?_, List.getLast?_eq_some_getLast hne, List.length_pos_iff.2 hne, hl.len, hl.nodup, ?_,
    hl.nonzero, ?_⟩
  · unfold rfFind rfSamples
    simp only [e, Option.map_some]
    rw [List.getLastD_eq_getLast?, List.getLast?_eq_some_getLast hne]; rfl
  · intro s hs
    rcases hl.between s hs with ⟨a, b⟩ | ⟨a, b⟩
    · exact ⟨min_lt_of_left_lt a, lt_max_of_lt_right b⟩
    · exact ⟨min_lt_of_right_lt a, lt_max_of_lt_left b⟩
  · intro hlt
    obtain ⟨r, er, hr⟩ := hl.early hlt
    rw [List.getLast?_eq_some_getLast hne] at er
    cases er
    exact hr

/-- C12: an endpoint that is itself a zero is returned exactly (the grid may call the solver with `f0 = 0 < f1`). -/
theorem C12_zero_endpoint (steps : Int) (C : Axis) (x0 y0 z0 c1 : K) (f : ScalarField K)
    (f0 f1 : K) (hf0 : f0 = f.value ⟨x0, y0, z0⟩) (hf1 : f1 = f.value ((⟨x0, y0, z0⟩ : Vec3 K).set C c1)) :
    (f0 = 0 → f1 ≠ 0 → rfFind steps C x0 y0 z0 c1 f0 f1 f = some ((⟨x0, y0, z0⟩ : Vec3 K).get C)) ∧
    (f1 = 0 → f0 ≠ 0 → rfFind steps C x0 y0 z0 c1 f0 f1 f = some c1) := by
  have hn : ∃ m, stepCount steps = m + 1 := ⟨stepCount steps - 1, by unfold stepCount; omega⟩
  obtain ⟨m, hm⟩ := hn
  constructor
  · intro h0 h1
    unfold rfFind rfSamples
    simp only [hm, rfLoop]
    rw [h0] at hf0
    have e : ((⟨x0, y0, z0⟩ : Vec3 K).get C * f1 - c1 * f0) / (f1 - f0) = (⟨x0, y0, z0⟩ : Vec3 K).get C := by
      rw [h0]; field_simp; ring
    rw [if_neg (by rw [h0]; simpa using h1), e, Vec3.set_get, ← hf0]
    simp
  · intro h1 h0
    unfold rfFind rfSamples
    simp only [hm, rfLoop]
    rw [h1] at hf1
    have e : ((⟨x0, y0, z0⟩ : Vec3 K).get C * f1 - c1 * f0) / (f1 - f0) = c1 := by
      rw [h1]; field_simp; ring
    rw [if_neg (by rw [h1]; simpa using h0), e, ← hf1]
    simp

/-- C12: for a field that is affine along the segment the exact zero is returned. -/
theorem C12_affine_exact (steps : Int) (C : Axis) (x0 y0 z0 c1 : K) (f : ScalarField K) (α β : K)
    (hβ : β ≠ 0) (hc : (⟨x0, y0, z0⟩ : Vec3 K).get C ≠ c1)
    (haff : ∀ c, f.value ((⟨x0, y0, z0⟩ : Vec3 K).set C c) = α + β * c) :
    rfFind steps C x0 y0 z0 c1 (f.value ⟨x0, y0, z0⟩) (f.value ((⟨x0, y0, z0⟩ : Vec3 K).set C c1)) f = some (-α / β) := by
  have hn : ∃ m, stepCount steps = m + 1 := ⟨stepCount steps - 1, by unfold stepCount; omega⟩
  obtain ⟨m, hm⟩ := hn
  set c0 := (⟨x0, y0, z0⟩ : Vec3 K).get C with hc0
  have e0 : f.value ⟨x0, y0, z0⟩ = α + β * c0 := by
    rw [← haff c0, hc0, Vec3.set_get]
  have hsub : c1 - c0 ≠ 0 := sub_ne_zero.2 hc.symm
  unfold rfFind rfSamples
  simp only [hm, rfLoop, haff, e0, ← hc0]
  have hd : α + β * c1 - (α + β * c0) = β * (c1 - c0) := by ring
  have hmid : (c0 * (α + β * c1) - c1 * (α + β * c0)) / (α + β * c1 - (α + β * c0)) = -α / β := by
    rw [hd, div_eq_div_iff (mul_ne_zero hβ hsub) hβ]; ring
  have hz : α + β * (-α / β) = 0 := by field_simp; ring
  rw [if_neg (by rw [hd]; exact mul_ne_zero hβ hsub), hmid, hz]
  simp

/-- Non-vacuity for C12 -/
example : (⟨0, 0, 0⟩ : Vec3 ℚ).get .Z ≠ 1 ∧ (-3 : ℚ) * 2 < 0 := by
  norm_num [Vec3.get]
example : ∃ f : ScalarField ℚ, ∀ c, f.value ((⟨0, 0, 0⟩ : Vec3 ℚ).set .Z c) = -1 + 3 * c :=
  ⟨⟨fun p => 3 * p.z - 1, fun _ => ⟨0, 0, 3⟩, fun _ _ => .Solid⟩, fun c => by simp [Vec3.set]; ring⟩

/-! ### C13 -/

/-- C13: every requested count, also zero or a negative one, gives at least one step, and counts `<= 1` behave like 1. -/
theorem C13_step_count (steps : Int) :
    1 ≤ stepCount steps ∧ (1 ≤ steps → (stepCount steps : Int) = steps) ∧
    (steps ≤ 1 → ∀ (C : Axis) (x0 y0 z0 c1 f0 f1 : K) (f : ScalarField K),
      bisectFind steps C x0 y0 z0 c1 f0 f1 f = bisectFind 1 C x0 y0 z0 c1 f0 f1 f ∧
      rfFind steps C x0 y0 z0 c1 f0 f1 f = rfFind 1 C x0 y0 z0 c1 f0 f1 f) := by
  refine ⟨by unfold stepCount; omega, fun h => by unfold stepCount; omega, ?_⟩
  intro h C x0 y0 z0 c1 f0 f1 f
  have : stepCount steps = stepCount 1 := by unfold stepCount; omega
  unfold bisectFind rfFind rfSamples
  rw [this]
  exact ⟨rfl, rfl⟩

example : stepCount (-7) = 1 ∧ stepCount 5 = 5 := by decide

end
end Isomesh
