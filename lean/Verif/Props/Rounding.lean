import Verif.Proofs.Float
import Verif.Spec.Rounding
import Verif.Props.ZeroFinder
import Verif.Props.Filled
import Mathlib.Tactic.NormNum.Pow

/-! C74: zero finders and edge records with rounded arithmetic. -/

set_option linter.unusedSectionVars false

namespace Isomesh
open Spec Set

section
variable {F : FloatFormat}

theorem fl_le_of_le {x : ℝ} {b : Fl F} (h : x ≤ b.val) : F.fl x ≤ b.val := by
  rw [← F.fl_rep _ b.rep]; exact F.mono h

theorem le_fl_of_le {x : ℝ} {b : Fl F} (h : b.val ≤ x) : b.val ≤ F.fl x := by
  rw [← F.fl_rep _ b.rep]; exact F.mono h

theorem Fl.mid_bounds {a b : Fl F} (h : a ≤ b) : a ≤ (a + b) * (1 / 2) ∧ (a + b) * (1 / 2) ≤ b := by
  rw [Fl.le_iff] at h
  rw [Fl.le_iff, Fl.le_iff, Fl.val_mul, Fl.val_half, Fl.val_add]
  have h1 : 2 * a.val ≤ F.fl (a.val + b.val) := by
    rw [← F.fl_rep _ (F.rep_double _ a.rep)]; exact F.mono (by linarith)
  have h2 : F.fl (a.val + b.val) ≤ 2 * b.val := by
    rw [← F.fl_rep _ (F.rep_double _ b.rep)]; exact F.mono (by linarith)
  exact ⟨le_fl_of_le (by linarith), fl_le_of_le (by linarith)⟩

theorem Fl.add_comm' (a b : Fl F) : a + b = b + a := by
  ext; rw [Fl.val_add, Fl.val_add, add_comm]

theorem Fl.mid_mem (a b : Fl F) : (a + b) * (1 / 2) ∈ uIcc a b := by
  rw [mem_uIcc]
  rcases le_total a b with h | h
  · exact Or.inl (Fl.mid_bounds h)
  · rw [Fl.add_comm']
    exact Or.inr (Fl.mid_bounds h)

theorem Fl.uIcc_sub {K : Type} [LinearOrder K] {a b m r : K} (hm : m ∈ uIcc a b) :
    (r ∈ uIcc m b → r ∈ uIcc a b) ∧ (r ∈ uIcc a m → r ∈ uIcc a b) :=
  ⟨fun h => uIcc_subset_uIcc hm right_mem_uIcc h, fun h => uIcc_subset_uIcc left_mem_uIcc hm h⟩

theorem Fl.set_set (p : Vec3 (Fl F)) (C : Axis) (a b : Fl F) : (p.set C a).set C b = p.set C b := by
  cases C <;> rfl

theorem Fl.bisect_mem (f : ScalarField (Fl F)) (C : Axis) (p : Vec3 (Fl F)) (n : Nat) (c0 c1 f0 f1 : Fl F) :
    bisectLoop f C p n c0 c1 f0 f1 ∈ uIcc c0 c1 := by
  induction n generalizing p c0 c1 f0 f1 with
  | zero => simp only [bisectLoop]; split_ifs <;> simp
  | succ n ih =>
    simp only [bisectLoop]
    have hm := Fl.mid_mem c0 c1
    split_ifs
    · exact (Fl.uIcc_sub hm).1 (ih _ _ _ _ _)
    · exact (Fl.uIcc_sub hm).2 (ih _ _ _ _ _)
    · exact hm
    · simp
    · simp

/-- C74: in every floating point format with every rounding mode, with or without underflow, the result of bisection is between
the two ends of the segment. -/
theorem C74_bisection_in_segment (steps : Int) (C : Axis) (x0 y0 z0 c1 f0 f1 : Fl F) (f : ScalarField (Fl F)) :
    bisectFind steps C x0 y0 z0 c1 f0 f1 f ∈ uIcc ((⟨x0, y0, z0⟩ : Vec3 (Fl F)).get C) c1 :=
  Fl.bisect_mem _ _ _ _ _ _ _ _

theorem Fl.bisect_local {f f' : ScalarField (Fl F)} (C : Axis) (p : Vec3 (Fl F)) (n : Nat) (c0 c1 f0 f1 : Fl F)
    (h : ∀ c ∈ uIcc c0 c1, f.value (p.set C c) = f'.value (p.set C c)) :
    bisectLoop f C p n c0 c1 f0 f1 = bisectLoop f' C p n c0 c1 f0 f1 := by
  induction n generalizing p c0 c1 f0 f1 with
  | zero => rfl
  | succ n ih =>
    simp only [bisectLoop]
    have hm := Fl.mid_mem c0 c1
    rw [h _ hm]
    have e1 := ih (p.set C ((c0 + c1) * (1 / 2))) ((c0 + c1) * (1 / 2)) c1 (f'.value (p.set C ((c0 + c1) * (1 / 2)))) f1
      (by intro c hc; rw [Fl.set_set]; exact h c ((Fl.uIcc_sub hm).1 hc))
    have e2 := ih (p.set C ((c0 + c1) * (1 / 2))) c0 ((c0 + c1) * (1 / 2)) f0 (f'.value (p.set C ((c0 + c1) * (1 / 2))))
      (by intro c hc; rw [Fl.set_set]; exact h c ((Fl.uIcc_sub hm).2 hc))
    rw [e1, e2]

/-- C74: bisection evaluates the field on the segment only: fields that agree there give the same result. -/
theorem C74_bisection_local (steps : Int) (C : Axis) (x0 y0 z0 c1 f0 f1 : Fl F) (f f' : ScalarField (Fl F))
    (h : ∀ c ∈ uIcc ((⟨x0, y0, z0⟩ : Vec3 (Fl F)).get C) c1,
      f.value ((⟨x0, y0, z0⟩ : Vec3 (Fl F)).set C c) = f'.value ((⟨x0, y0, z0⟩ : Vec3 (Fl F)).set C c)) :
    bisectFind steps C x0 y0 z0 c1 f0 f1 f = bisectFind steps C x0 y0 z0 c1 f0 f1 f' :=
  Fl.bisect_local _ _ _ _ _ _ _ h

/-! ### Accuracy -/

/-- `v` is the value of the field at `c` on the line, or the value that was given for an end of the segment. -/
def KnownValue (f : ScalarField (Fl F)) (C : Axis) (p : Vec3 (Fl F)) (c0 c1 f0 f1 c v : Fl F) : Prop :=
  v = f.value (p.set C c) ∨ (c = c0 ∧ v = f0) ∨ (c = c1 ∧ v = f1)

theorem Fl.mul_pos_iff' (hF : NoUnderflow F) {a b : Fl F} : a * b > 0 ↔ 0 < a.val * b.val := by
  show (0 : Fl F) < a * b ↔ _
  rw [Fl.lt_iff, Fl.val_mul, Fl.val_zero]
  constructor
  · intro h
    by_contra hc
    have : F.fl (a.val * b.val) ≤ (0 : Fl F).val := fl_le_of_le (by rw [Fl.val_zero]; exact not_lt.1 hc)
    rw [Fl.val_zero] at this
    linarith
  · exact hF.pos _

theorem Fl.mid_val (hF : NoUnderflow F) (a b : Fl F) : ((a + b) * (1 / 2)).val = F.fl (a.val + b.val) / 2 := by
  rw [Fl.val_mul, Fl.val_half, Fl.val_add]
  have : F.fl (a.val + b.val) * (1 / 2) = F.fl (a.val + b.val) / 2 := by ring
  rw [this]
  exact F.fl_rep _ (hF.half _ (F.rep_fl _))

theorem abs_le_of_uIcc {F : FloatFormat} {a b c : Fl F} {M : ℝ} (ha : |a.val| ≤ M) (hb : |b.val| ≤ M) (hc : c ∈ uIcc a b) :
    |c.val| ≤ M := by
  rw [abs_le] at *
  rw [mem_uIcc, Fl.le_iff, Fl.le_iff, Fl.le_iff, Fl.le_iff] at hc
  rcases hc with h | h <;> constructor <;> linarith

theorem Fl.bisect_bracket (hF : NoUnderflow F) {u M : ℝ} (hu : RelError F u) (hu0 : 0 ≤ u) (f : ScalarField (Fl F)) (C : Axis)
    (p : Vec3 (Fl F)) (n : Nat) (c0 c1 f0 f1 : Fl F) (hM0 : |c0.val| ≤ M) (hM1 : |c1.val| ≤ M)
    (hs : f0.val * f1.val ≤ 0) :
    ∃ a b va vb : Fl F, a ∈ uIcc c0 c1 ∧ b ∈ uIcc c0 c1 ∧ KnownValue f C p c0 c1 f0 f1 a va ∧
      KnownValue f C p c0 c1 f0 f1 b vb ∧ va.val * vb.val ≤ 0 ∧
      |b.val - a.val| ≤ |c1.val - c0.val| / 2 ^ n + 2 * (u * M) * (1 - 1 / 2 ^ n) ∧
      (bisectLoop f C p n c0 c1 f0 f1 = a ∧ |va.val| ≤ |vb.val| ∨ bisectLoop f C p n c0 c1 f0 f1 = b ∧ |vb.val| ≤ |va.val|) := by
  have hMn : 0 ≤ M := (abs_nonneg _).trans hM0
  have huM : 0 ≤ u * M := mul_nonneg hu0 hMn
  induction n generalizing p c0 c1 f0 f1 with
  | zero =>
    refine ⟨c0, c1, f0, f1, left_mem_uIcc, right_mem_uIcc, Or.inr (Or.inl ⟨rfl, rfl⟩), Or.inr (Or.inr ⟨rfl, rfl⟩), hs, ?_, ?_⟩
    · simp
    · simp only [bisectLoop]
      split_ifs with h
      · rw [Fl.le_iff, Fl.val_fabs, Fl.val_fabs] at h
        exact Or.inl ⟨rfl, h⟩
      · rw [Fl.le_iff, Fl.val_fabs, Fl.val_fabs] at h
        exact Or.inr ⟨rfl, (not_le.1 h).le⟩
  | succ n ih =>
    have hm := Fl.mid_mem c0 c1
    have hmv := Fl.mid_val hF c0 c1
    simp only [bisectLoop]
    set mid := (c0 + c1) * (1 / 2) with hmid
    set v := f.value (p.set C mid) with hv
    have hMm := abs_le_of_uIcc hM0 hM1 hm
    -- the halves are not much larger than half the segment
    have herr : |mid.val - (c0.val + c1.val) / 2| ≤ u * M := by
      have h1 := hu (c0.val + c1.val)
      have h2 : |c0.val + c1.val| ≤ 2 * M := (abs_add_le _ _).trans (by linarith)
      have h3 : u * |c0.val + c1.val| ≤ u * (2 * M) := mul_le_mul_of_nonneg_left h2 hu0
      rw [hmv, ← sub_div, abs_div, abs_of_pos (two_pos (α := ℝ))]
      linarith
    have w1 : |c1.val - mid.val| ≤ |c1.val - c0.val| / 2 + u * M := by
      have : c1.val - mid.val = (c1.val - c0.val) / 2 - (mid.val - (c0.val + c1.val) / 2) := by ring
      rw [this]
      refine (abs_sub _ _).trans ?_
      rw [abs_div, abs_of_pos (two_pos (α := ℝ))]
      linarith
    have w0 : |mid.val - c0.val| ≤ |c1.val - c0.val| / 2 + u * M := by
      have : mid.val - c0.val = (c1.val - c0.val) / 2 + (mid.val - (c0.val + c1.val) / 2) := by ring
      rw [this]
      refine (abs_add_le _ _).trans ?_
      rw [abs_div, abs_of_pos (two_pos (α := ℝ))]
      linarith
    have wn {w : ℝ} (h : w ≤ |c1.val - c0.val| / 2 + u * M) : w / 2 ^ n + 2 * (u * M) * (1 - 1 / 2 ^ n) ≤
        |c1.val - c0.val| / 2 ^ (n + 1) + 2 * (u * M) * (1 - 1 / 2 ^ (n + 1)) := by
      have h2 := div_le_div_of_nonneg_right h (by positivity : (0 : ℝ) ≤ 2 ^ n)
      refine (add_le_add_left h2 _).trans (le_of_eq ?_)
      rw [pow_succ]
      field_simp
      ring
    have wz : (0 : ℝ) ≤ |c1.val - c0.val| / 2 ^ (n + 1) + 2 * (u * M) * (1 - 1 / 2 ^ (n + 1)) := by
      have h2 : (1 : ℝ) / 2 ^ (n + 1) ≤ 1 := by
        rw [div_le_one (by positivity)]
        exact one_le_pow₀ (by norm_num)
      exact add_nonneg (by positivity) (mul_nonneg (by linarith) (by linarith))
    have known1 {c w : Fl F} (h : KnownValue f C (p.set C mid) mid c1 v f1 c w) : KnownValue f C p c0 c1 f0 f1 c w := by
      rcases h with h | ⟨rfl, rfl⟩ | h
      · rw [Fl.set_set] at h; exact Or.inl h
      · exact Or.inl hv
      · exact Or.inr (Or.inr h)
    have known0 {c w : Fl F} (h : KnownValue f C (p.set C mid) c0 mid f0 v c w) : KnownValue f C p c0 c1 f0 f1 c w := by
      rcases h with h | h | ⟨rfl, rfl⟩
      · rw [Fl.set_set] at h; exact Or.inl h
      · exact Or.inr (Or.inl h)
      · exact Or.inl hv
    split_ifs with h1 h2 h3 h4
    · rw [Fl.mul_pos_iff' hF] at h1
      obtain ⟨a, b, va, vb, ha, hb, ka, kb, hab, hw, hr⟩ := ih (p.set C mid) mid c1 v f1 hMm hM1 (by
        rcases mul_pos_iff.1 h1 with h | h <;> rcases mul_nonpos_iff.1 hs with h' | h' <;> nlinarith [h.1, h.2, h'.1, h'.2])
      exact ⟨a, b, va, vb, (Fl.uIcc_sub hm).1 ha, (Fl.uIcc_sub hm).1 hb, known1 ka, known1 kb, hab, hw.trans (wn w1), hr⟩
    · rw [Fl.mul_pos_iff' hF] at h2
      obtain ⟨a, b, va, vb, ha, hb, ka, kb, hab, hw, hr⟩ := ih (p.set C mid) c0 mid f0 v hM0 hMm (by
        rcases mul_pos_iff.1 h2 with h | h <;> rcases mul_nonpos_iff.1 hs with h' | h' <;> nlinarith [h.1, h.2, h'.1, h'.2])
      exact ⟨a, b, va, vb, (Fl.uIcc_sub hm).2 ha, (Fl.uIcc_sub hm).2 hb, known0 ka, known0 kb, hab, hw.trans (wn w0), hr⟩
    all_goals
      rw [Fl.mul_pos_iff' hF, not_lt] at h1 h2
      rw [le_min_iff, Fl.le_iff, Fl.le_iff, Fl.val_fabs, Fl.val_fabs, Fl.val_fabs] at h3
      have hcase : v.val = 0 ∨ f0.val = 0 ∨ f1.val = 0 := by
        by_contra hne
        push Not at hne
        obtain ⟨hv0, ha0, hb0⟩ := hne
        have hva := lt_of_le_of_ne h1 (mul_ne_zero hv0 ha0)
        have hvb := lt_of_le_of_ne h2 (mul_ne_zero hv0 hb0)
        have k1 := mul_pos_of_neg_of_neg hva hvb
        have k2 : v.val * f0.val * (v.val * f1.val) = v.val * v.val * (f0.val * f1.val) := by ring
        have k3 : v.val * v.val * (f0.val * f1.val) ≤ 0 := mul_nonpos_of_nonneg_of_nonpos (mul_self_nonneg _) hs
        linarith
    · have : v.val = 0 := by
        rcases hcase with h | h | h
        · exact h
        · rw [h, abs_zero] at h3; exact abs_nonpos_iff.1 h3.1
        · rw [h, abs_zero] at h3; exact abs_nonpos_iff.1 h3.2
      refine ⟨mid, mid, v, v, hm, hm, Or.inl hv, Or.inl hv, by simp [this], by simpa using wz, Or.inl ⟨rfl, le_rfl⟩⟩
    · rw [Fl.le_iff, Fl.val_fabs, Fl.val_fabs] at h4
      have : f0.val = 0 := by
        rcases hcase with h | h | h
        · exfalso; apply h3; rw [h, abs_zero]; exact ⟨abs_nonneg _, abs_nonneg _⟩
        · exact h
        · rw [h, abs_zero] at h4; exact abs_nonpos_iff.1 h4
      have k : KnownValue f C p c0 c1 f0 f1 c0 f0 := Or.inr (Or.inl ⟨rfl, rfl⟩)
      exact ⟨c0, c0, f0, f0, left_mem_uIcc, left_mem_uIcc, k, k, by simp [this], by simpa using wz, Or.inl ⟨rfl, le_rfl⟩⟩
    · rw [Fl.le_iff, Fl.val_fabs, Fl.val_fabs] at h4
      have : f1.val = 0 := by
        rcases hcase with h | h | h
        · exfalso; apply h3; rw [h, abs_zero]; exact ⟨abs_nonneg _, abs_nonneg _⟩
        · exfalso; apply h4; rw [h, abs_zero]; exact abs_nonneg _
        · exact h
      have k : KnownValue f C p c0 c1 f0 f1 c1 f1 := Or.inr (Or.inr ⟨rfl, rfl⟩)
      exact ⟨c1, c1, f1, f1, right_mem_uIcc, right_mem_uIcc, k, k, by simp [this], by simpa using wz, Or.inl ⟨rfl, le_rfl⟩⟩

/-- C74: with rounding to nearest (relative error `u`, `2^-53` for `double`) and without underflow, if the values at the ends of
the segment have opposite signs or one is zero, bisection ends with two points of the segment whose known values have opposite
signs (or with an exact zero), at a distance of at most the length of the segment over `2^n` plus twice the rounding error of
the coordinates, and returns the one of them with the smaller absolute value. -/
theorem C74_bisection_accuracy (hF : NoUnderflow F) {u M : ℝ} (hu : RelError F u) (hu0 : 0 ≤ u) (steps : Int) (C : Axis)
    (p : Vec3 (Fl F)) (c1 f0 f1 : Fl F) (f : ScalarField (Fl F)) (hM0 : |(p.get C).val| ≤ M) (hM1 : |c1.val| ≤ M)
    (hs : f0.val * f1.val ≤ 0) :
    ∃ a b va vb : Fl F, a ∈ uIcc (p.get C) c1 ∧ b ∈ uIcc (p.get C) c1 ∧ KnownValue f C p (p.get C) c1 f0 f1 a va ∧
      KnownValue f C p (p.get C) c1 f0 f1 b vb ∧ va.val * vb.val ≤ 0 ∧
      |b.val - a.val| ≤ |c1.val - (p.get C).val| / 2 ^ (stepCount steps) + 2 * (u * M) ∧
      (bisectFind steps C p.x p.y p.z c1 f0 f1 f = a ∧ |va.val| ≤ |vb.val| ∨
        bisectFind steps C p.x p.y p.z c1 f0 f1 f = b ∧ |vb.val| ≤ |va.val|) := by
  obtain ⟨a, b, va, vb, ha, hb, ka, kb, hab, hw, hr⟩ :=
    Fl.bisect_bracket hF hu hu0 f C p (stepCount steps) (p.get C) c1 f0 f1 hM0 hM1 hs
  refine ⟨a, b, va, vb, ha, hb, ka, kb, hab, hw.trans ?_, hr⟩
  have hMn : 0 ≤ u * M := mul_nonneg hu0 ((abs_nonneg _).trans hM0)
  have : (0 : ℝ) ≤ 1 / 2 ^ (stepCount steps) := by positivity
  nlinarith

/-! ### Offsets of the edge records -/

theorem Fl.sampled_mem (f : ScalarField (Fl F)) (steps : Int) (sample pos : IVec3 → Vec3 (Fl F)) (step : Fl F) (D : Axis)
    (p : IVec3) :
    sampledCoord f (bisectionFinder steps) sample pos step D p ∈ uIcc ((pos p).get D) ((pos p).get D + step) := by
  cases D <;> exact C74_bisection_in_segment _ _ _ _ _ _ _ _ _

theorem Fl.add_step_le {x step : Fl F} (hs : 0 < step) : x ≤ x + step := by
  rw [Fl.le_iff, Fl.val_add]
  rw [Fl.lt_iff, Fl.val_zero] at hs
  exact le_fl_of_le (by linarith)

theorem Fl.sampled_bounds (f : ScalarField (Fl F)) (steps : Int) (sample pos : IVec3 → Vec3 (Fl F)) {step : Fl F} (hs : 0 < step)
    (D : Axis) (p : IVec3) :
    (pos p).get D ≤ sampledCoord f (bisectionFinder steps) sample pos step D p ∧
      sampledCoord f (bisectionFinder steps) sample pos step D p ≤ (pos p).get D + step := by
  have h := Fl.sampled_mem f steps sample pos step D p
  rw [uIcc_of_le (Fl.add_step_le hs)] at h
  exact h

/-- C74: after `fill` with bisection the offsets of the records are not negative, and at most one if the far end of the edge is
not rounded up; for every format and rounding mode. -/
theorem C74_offset_bounds {g g' : Grid (Fl F)} (hg : g.Reachable) {f : ScalarField (Fl F)} {steps : Int}
    (h : g.fill f (bisectionFinder steps) = some g') (hs : 0 < g.step) {D : Axis} {e : GridEdge (Fl F)} (he : e ∈ g'.edges D) :
    0 ≤ e.offset ∧ (F.fl (((worldPos g.globalPos g.step e.lesser).get D).val + g.step.val) ≤
      ((worldPos g.globalPos g.step e.lesser).get D).val + g.step.val → e.offset ≤ 1) := by
  obtain ⟨p, -, -, rfl⟩ := ((C73_fill_edges hg h D).1 e).1 he
  have hb := Fl.sampled_bounds f steps (samplePos g.globalPos g.step g.maxCoord) (worldPos g.globalPos g.step) hs D p
  have hs' := hs
  rw [Fl.lt_iff, Fl.val_zero] at hs'
  simp only [sampledRecord]
  generalize sampledCoord f (bisectionFinder steps) (samplePos g.globalPos g.step g.maxCoord)
    (worldPos g.globalPos g.step) g.step D p = c at hb ⊢
  generalize (worldPos g.globalPos g.step p).get D = x at hb ⊢
  rw [Fl.le_iff, Fl.le_iff, Fl.val_add] at hb
  rw [Fl.le_iff, Fl.le_iff, Fl.val_zero, Fl.val_one, Fl.val_div, Fl.val_sub]
  constructor
  · have h1 : (0 : Fl F).val ≤ F.fl (c.val - x.val) := le_fl_of_le (by rw [Fl.val_zero]; linarith)
    have h2 : (0 : Fl F).val ≤ F.fl (F.fl (c.val - x.val) / g.step.val) :=
      le_fl_of_le (by rw [Fl.val_zero] at h1 ⊢; exact div_nonneg h1 hs'.le)
    rwa [Fl.val_zero] at h2
  · intro hr
    have h1 : F.fl (c.val - x.val) ≤ g.step.val := fl_le_of_le (by linarith)
    have h2 : F.fl (F.fl (c.val - x.val) / g.step.val) ≤ (1 : Fl F).val :=
      fl_le_of_le (by rw [Fl.val_one, div_le_one hs']; exact h1)
    rwa [Fl.val_one] at h2

/-- C74: the general bound on the offsets. -/
theorem C74_offset_error {u : ℝ} (hu : RelError F u) (hu0 : 0 ≤ u) {g g' : Grid (Fl F)} (hg : g.Reachable)
    {f : ScalarField (Fl F)} {steps : Int} (h : g.fill f (bisectionFinder steps) = some g') (hs : 0 < g.step) {D : Axis}
    {e : GridEdge (Fl F)} (he : e ∈ g'.edges D) :
    e.offset.val ≤
      (1 + u) ^ 2 * (1 + u * (1 + |((worldPos g.globalPos g.step e.lesser).get D).val| / g.step.val)) := by
  obtain ⟨p, -, -, rfl⟩ := ((C73_fill_edges hg h D).1 e).1 he
  have hb := Fl.sampled_bounds f steps (samplePos g.globalPos g.step g.maxCoord) (worldPos g.globalPos g.step) hs D p
  rw [Fl.lt_iff, Fl.val_zero] at hs
  simp only [sampledRecord]
  generalize sampledCoord f (bisectionFinder steps) (samplePos g.globalPos g.step g.maxCoord)
    (worldPos g.globalPos g.step) g.step D p = c at hb ⊢
  generalize (worldPos g.globalPos g.step p).get D = x at hb ⊢
  rw [Fl.le_iff, Fl.le_iff, Fl.val_add] at hb
  rw [Fl.val_div, Fl.val_sub]
  have h1 := hu (x.val + g.step.val)
  have h2 : |x.val + g.step.val| ≤ |x.val| + g.step.val := (abs_add_le _ _).trans (by rw [abs_of_pos hs])
  have h3 : c.val - x.val ≤ g.step.val + u * (|x.val| + g.step.val) := by
    have := (abs_le.1 h1).2
    have := mul_le_mul_of_nonneg_left h2 hu0
    linarith [hb.2]
  have grow {a b : ℝ} (ha : 0 ≤ a) (hab : a ≤ b) : F.fl a ≤ (1 + u) * b := by
    have := (abs_le.1 (hu a)).2
    rw [abs_of_nonneg ha] at this
    have := mul_le_mul_of_nonneg_left hab hu0
    linarith
  have h4 := grow (by linarith [hb.1]) h3
  have h5 : 0 ≤ F.fl (c.val - x.val) := by
    have : (0 : Fl F).val ≤ F.fl (c.val - x.val) := le_fl_of_le (by rw [Fl.val_zero]; linarith)
    rwa [Fl.val_zero] at this
  refine (grow (div_nonneg h5 hs.le) (div_le_div_of_nonneg_right h4 hs.le)).trans (le_of_eq ?_)
  field_simp
  ring

theorem RelError.nearest {p : Nat} (hp : 24 ≤ p) {r : ℝ → ℤ} (hm : Monotone r) (hn : ∀ y, |(r y : ℝ) - y| ≤ 1 / 2) :
    RelError (binaryFormat p hp r hm (nearest_int hn)) (1 / 2 ^ p) :=
  fun x => nearest_error hn (by omega) x

theorem NoUnderflow.binary {p : Nat} (hp : 24 ≤ p) {r : ℝ → ℤ} (hm : Monotone r) (hi : ∀ n : ℤ, r n = n) :
    NoUnderflow (binaryFormat p hp r hm hi) where
  pos := by
    intro x hx
    have h1 := le_flBits_abs (r := r) (x := x) hm hi (p := p) (by omega) hx.ne'
    have h2 := flBits_nonneg (p := p) (r := r) hm hi hx.le
    have h3 : (0 : ℝ) < 2 ^ Int.log 2 |x| := zpow_pos two_pos _
    rw [abs_of_nonneg h2] at h1
    exact lt_of_lt_of_le h3 h1
  half := by
    rintro _ ⟨m, e, h, rfl⟩
    exact ⟨m, e - 1, h, by rw [zpow_sub₀ two_ne_zero, zpow_one]; ring⟩

/-- Numbers slightly above one are rounded to one in `float`. -/
theorem float_le_one {r : ℝ → ℤ} (hm : Monotone r) (hn : ∀ y, |(r y : ℝ) - y| ≤ 1 / 2) {x : ℝ} (h : x < 1 + 1 / 2 ^ 24) :
    flBits 24 r x ≤ 1 := by
  have e1 : flBits 24 r 1 = 1 := flBits_id (nearest_int hn) (by norm_num) ⟨1, 0, by norm_num, by simp⟩
  rcases le_or_gt x 1 with hx | hx
  · rw [← e1]; exact flBits_mono hm (nearest_int hn) (by norm_num) hx
  · have := nearest_eval (p := 24) (x := x) hn (k := 0) (m := 2 ^ 23)
      (by rw [abs_of_pos (by linarith)]; norm_num; exact hx.le)
      (by rw [abs_of_pos (by linarith)]; norm_num; norm_num at h; linarith)
      (by
        have e : ((2 ^ 23 : ℤ) : ℝ) * 2 ^ ((0 : ℤ) + 1 - (24 : ℕ)) = 1 := by
          norm_num [zpow_neg]
        rw [e, abs_of_pos (by linarith)]
        norm_num [zpow_neg] at h ⊢
        linarith)
    rw [this]
    norm_num [zpow_neg]

/-- C74: with `double` coordinates and `float` records, both rounded to nearest (any rule for ties), the surface points of the
records are on their edges, as long as no vertex of the grid is more than 2^28 steps away from the origin along the axis of the
edge. -/
theorem C74_surface_point {r s : ℝ → ℤ} (hm : Monotone r) (hn : ∀ y, |(r y : ℝ) - y| ≤ 1 / 2) (km : Monotone s)
    (kn : ∀ y, |(s y : ℝ) - y| ≤ 1 / 2) :
    let D64 := binaryFormat 53 (by norm_num) r hm (nearest_int hn)
    let F32 := binaryFormat 24 (by norm_num) s km (nearest_int kn)
    ∀ {g g' : Grid (Fl D64)}, g.Reachable → ∀ {f : ScalarField (Fl D64)} {steps : Int},
      g.fill f (bisectionFinder steps) = some g' → 0 < g.step → ∀ {D : Axis} {e : GridEdge (Fl D64)}, e ∈ g'.edges D →
      |((worldPos g.globalPos g.step e.lesser).get D).val| ≤ 2 ^ 28 * g.step.val →
      let q := (e.narrow F32).surfacePoint
      (0 ≤ (e.narrow F32).offset ∧ (e.narrow F32).offset ≤ 1) ∧
      ∀ C, (q.get C).val ∈ if C = D then Icc (e.lesser.get C : ℝ) (e.lesser.get C + 1) else {(e.lesser.get C : ℝ)} := by
  intro D64 F32 g g' hg f steps h hs D e he hbig q
  have h0 := (C74_offset_bounds hg h hs he).1
  have h1 := C74_offset_error (RelError.nearest (by norm_num) hm hn) (by norm_num) hg h hs he
  obtain ⟨p, hp, -, hrec⟩ := ((C73_fill_edges hg h D).1 e).1 he
  have hax : e.axis = D := by rw [hrec]; rfl
  have hin : InCube g.maxCoord e.lesser := by
    rw [hrec]; exact hp p (by cases D <;> simp [edgeVertices])
  have hhalf : g.half ≤ 512 := by
    have h1 := hg.wf.le
    have h2 := hg.wf.half_eq
    omega
  have hstep := hs
  rw [Fl.lt_iff, Fl.val_zero] at hstep
  rw [Fl.le_iff, Fl.val_zero] at h0
  -- the narrowed offset
  have k0 : 0 ≤ (e.narrow F32).offset.val := by
    have := F32.mono h0
    rwa [show F32.fl 0 = 0 by have := Fl.fl_int F32 (n := 0) (by norm_num); exact_mod_cast this] at this
  have k1 : (e.narrow F32).offset.val ≤ 1 := by
    refine float_le_one km kn (lt_of_le_of_lt h1 ?_)
    have : |((worldPos g.globalPos g.step e.lesser).get D).val| / g.step.val ≤ 2 ^ 28 := by
      rw [div_le_iff₀ hstep]; exact hbig
    refine lt_of_le_of_lt (mul_le_mul_of_nonneg_left (add_le_add_right (mul_le_mul_of_nonneg_left
      (add_le_add_right this 1) (by norm_num)) 1) (by positivity)) ?_
    norm_num
  have hl (C : Axis) : |e.lesser.get C| ≤ 512 := by
    obtain ⟨i1, i2, i3⟩ := hin
    unfold Grid.maxCoord at i1 i2 i3
    cases C <;> simp only [IVec3.get, abs_le] <;> omega
  have hv (C : Axis) : ((e.lesser.get C : Fl F32)).val = e.lesser.get C := Fl.val_int ((hl C).trans (by norm_num))
  refine ⟨⟨by rw [Fl.le_iff, Fl.val_zero]; exact k0, by rw [Fl.le_iff, Fl.val_one]; exact k1⟩, ?_⟩
  have hq (C : Axis) : q.get C = if C = D then (e.lesser.get C : Fl F32) + (e.narrow F32).offset else (e.lesser.get C : Fl F32) := by
    have : (e.narrow F32).axis = D := hax
    simp only [q, GridEdge.surfacePoint, this]
    cases C <;> cases D <;> rfl
  intro C
  rw [hq]
  split_ifs with hc
  · rw [Fl.val_add, hv]
    constructor
    · have : ((e.lesser.get C : Fl F32)).val ≤ F32.fl (e.lesser.get C + (e.narrow F32).offset.val) :=
        le_fl_of_le (by rw [hv]; linarith)
      rwa [hv] at this
    · have e1 : (((e.lesser.get C + 1 : ℤ) : Fl F32)).val = e.lesser.get C + 1 := by
        rw [Fl.val_int]
        · push_cast; rfl
        · have := abs_le.1 (hl C)
          rw [abs_le]
          constructor <;> norm_num <;> omega
      have : F32.fl (e.lesser.get C + (e.narrow F32).offset.val) ≤ (((e.lesser.get C + 1 : ℤ) : Fl F32)).val :=
        fl_le_of_le (by rw [e1]; linarith)
      rwa [e1] at this
  · exact hv C

/-! ### Regula falsi -/

/-- C74: in contrast to bisection, regula falsi leaves the segment: with `double` rounded to nearest there are ends `c0 < c1` and
values of opposite sign for which the point returned after one step is less than `c0`, whatever the field is. -/
theorem C74_regula_falsi_leaves_segment {r : ℝ → ℤ} (hm : Monotone r) (hn : ∀ y, |(r y : ℝ) - y| ≤ 1 / 2) :
    ∃ c0 c1 f0 f1 : Fl (binaryFormat 53 (by norm_num) r hm (nearest_int hn)),
      c0 < c1 ∧ f0.val < 0 ∧ 0 < f1.val ∧
      ∀ f : ScalarField (Fl (binaryFormat 53 (by norm_num) r hm (nearest_int hn))), ∀ y z,
        ∃ m, rfFind 1 .X c0 y z c1 f0 f1 f = some m ∧ m < c0 := by
  set F := binaryFormat 53 (by norm_num) r hm (nearest_int hn) with hF
  have hfl (x : ℝ) : F.fl x = flBits 53 r x := rfl
  refine ⟨⟨2 - 1 / 2 ^ 52, 2 ^ 53 - 1, -52, by norm_num, by norm_num⟩, ⟨3, 3, 0, by norm_num, by norm_num⟩,
    ⟨-(1 / 2 ^ 200), -1, -200, by norm_num, by norm_num⟩, ⟨1 + 1 / 2 ^ 52, 2 ^ 52 + 1, -52, by norm_num, by norm_num⟩,
    by rw [Fl.lt_iff]; norm_num, by norm_num, by norm_num, ?_⟩
  intro f y z
  have e1 : F.fl ((2 - 1 / 2 ^ 52) * (1 + 1 / 2 ^ 52)) = 2 := by
    rw [hfl, nearest_eval hn (k := 1) (m := 2 ^ 52)] <;> norm_num [abs_of_pos, abs_lt]
  have e2 : F.fl (3 * -(1 / 2 ^ 200)) = 3 * -(1 / 2 ^ 200) := F.fl_rep _ ⟨-3, -200, by norm_num, by norm_num⟩
  have e3 : F.fl (2 - 3 * -(1 / 2 ^ 200)) = 2 := by
    rw [hfl, nearest_eval hn (k := 1) (m := 2 ^ 52)] <;> norm_num [abs_of_pos, abs_lt]
  have e4 : F.fl (1 + 1 / 2 ^ 52 - -(1 / 2 ^ 200)) = 1 + 1 / 2 ^ 52 := by
    rw [hfl, nearest_eval hn (k := 0) (m := 2 ^ 52 + 1)] <;> norm_num [abs_of_pos, abs_lt]
  have e5 : F.fl (2 / (1 + 1 / 2 ^ 52)) = 2 - 2 / 2 ^ 52 := by
    rw [hfl, nearest_eval hn (k := 0) (m := 2 ^ 53 - 2)] <;> norm_num [abs_of_pos, abs_lt]
  refine ⟨⟨2 - 2 / 2 ^ 52, 2 ^ 53 - 2, -52, by norm_num, by norm_num⟩, ?_, by rw [Fl.lt_iff]; norm_num⟩
  unfold rfFind rfSamples
  have hst : stepCount 1 = 1 := rfl
  simp only [hst, rfLoop, Vec3.get]
  rw [if_neg]
  · have hmid : ((⟨2 - 1 / 2 ^ 52, 2 ^ 53 - 1, -52, by norm_num, by norm_num⟩ : Fl F) *
        (⟨1 + 1 / 2 ^ 52, 2 ^ 52 + 1, -52, by norm_num, by norm_num⟩ : Fl F) -
        (⟨3, 3, 0, by norm_num, by norm_num⟩ : Fl F) * (⟨-(1 / 2 ^ 200), -1, -200, by norm_num, by norm_num⟩ : Fl F)) /
        ((⟨1 + 1 / 2 ^ 52, 2 ^ 52 + 1, -52, by norm_num, by norm_num⟩ : Fl F) -
          (⟨-(1 / 2 ^ 200), -1, -200, by norm_num, by norm_num⟩ : Fl F)) =
        (⟨2 - 2 / 2 ^ 52, 2 ^ 53 - 2, -52, by norm_num, by norm_num⟩ : Fl F) := by
      ext
      rw [Fl.val_div, Fl.val_sub, Fl.val_sub, Fl.val_mul, Fl.val_mul]
      dsimp only
      rw [e1, e2, e3, e4, e5]
    rw [hmid]
    split_ifs <;> simp
  · intro h
    have := congrArg Fl.val h
    rw [Fl.val_sub, Fl.val_zero] at this
    dsimp only at this
    rw [e4] at this
    norm_num at this

end
end Isomesh
