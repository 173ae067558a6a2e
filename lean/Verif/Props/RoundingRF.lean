import Verif.Props.Rounding

/-! C74: regula falsi with rounded arithmetic. -/

namespace Isomesh
open Spec Set

section
variable {F : FloatFormat}

section
variable {u : ℝ} (hu : RelError F u) (hu0 : 0 ≤ u) (hu1 : u ≤ 1 / 100)
include hu hu0 hu1

theorem fl_pos_iff (x : ℝ) : 0 < F.fl x ↔ 0 < x := by
  have h := abs_le.1 (hu x)
  constructor
  · intro hp
    by_contra hx
    rw [abs_of_nonpos (not_lt.1 hx)] at h
    nlinarith [h.1, h.2, not_lt.1 hx]
  · intro hp
    rw [abs_of_pos hp] at h
    nlinarith [h.1, h.2]

theorem fl_zero_iff (x : ℝ) : F.fl x = 0 ↔ x = 0 := by
  have h := abs_le.1 (hu x)
  constructor
  · intro hp
    rw [hp] at h
    rcases abs_cases x with ⟨ha, _⟩ | ⟨ha, _⟩ <;> rw [ha] at h <;> nlinarith [h.1, h.2]
  · rintro rfl
    rw [abs_zero, mul_zero] at h
    linarith [h.1, h.2]

/-- One step of regula falsi in rounded arithmetic is close to the exact one. -/
theorem rf_mid_error {c0 c1 f0 f1 M : ℝ} (h0 : |c0| ≤ M) (h1 : |c1| ≤ M) (hs : f0 * f1 ≤ 0) (hne : f1 - f0 ≠ 0) :
    |F.fl (F.fl (F.fl (c0 * f1) - F.fl (c1 * f0)) / F.fl (f1 - f0)) - (c0 * f1 - c1 * f0) / (f1 - f0)| ≤ 5 * u * M := by
  have hM : 0 ≤ M := (abs_nonneg _).trans h0
  have hD : |f1 - f0| = |f1| + |f0| := by
    rcases mul_nonpos_iff.1 hs with ⟨a, b⟩ | ⟨a, b⟩
    · rw [abs_of_nonneg a, abs_of_nonpos b, abs_of_nonpos (by linarith)]; ring
    · rw [abs_of_nonpos a, abs_of_nonneg b, abs_of_nonneg (by linarith)]; ring
  have hDp : 0 < |f1 - f0| := abs_pos.2 hne
  have eA := hu (c0 * f1)
  have eB := hu (c1 * f0)
  have eD := hu (f1 - f0)
  set A := c0 * f1 with hA
  set B := c1 * f0 with hB
  set D := f1 - f0 with hDd
  set N := F.fl A - F.fl B with hN
  have eN := hu N
  have bA : |A| ≤ M * |f1| := by rw [hA, abs_mul]; exact mul_le_mul_of_nonneg_right h0 (abs_nonneg _)
  have bB : |B| ≤ M * |f0| := by rw [hB, abs_mul]; exact mul_le_mul_of_nonneg_right h1 (abs_nonneg _)
  have bAB : |A - B| ≤ M * |D| := by
    rw [hD, mul_add]
    exact (abs_sub _ _).trans (add_le_add bA bB)
  have n1 : |N - (A - B)| ≤ u * M * |D| := by
    have e : N - (A - B) = (F.fl A - A) - (F.fl B - B) := by rw [hN]; ring
    rw [e, hD]
    refine (abs_sub _ _).trans ?_
    have := mul_le_mul_of_nonneg_left bA hu0
    have := mul_le_mul_of_nonneg_left bB hu0
    nlinarith
  have n2 : |N| ≤ (1 + u) * M * |D| := by
    have e : N = (N - (A - B)) + (A - B) := by ring
    rw [e]
    refine (abs_add_le _ _).trans ?_
    nlinarith
  have n3 : |F.fl N - (A - B)| ≤ (2 * u + u ^ 2) * M * |D| := by
    have e : F.fl N - (A - B) = (F.fl N - N) + (N - (A - B)) := by ring
    rw [e]
    refine (abs_add_le _ _).trans ?_
    have := mul_le_mul_of_nonneg_left n2 hu0
    nlinarith
  have n4 : |F.fl N| ≤ (1 + u) ^ 2 * M * |D| := by
    have e : F.fl N = (F.fl N - (A - B)) + (A - B) := by ring
    rw [e]
    refine (abs_add_le _ _).trans ?_
    nlinarith
  have d1 : (1 - u) * |D| ≤ |F.fl D| := by
    have e : D = F.fl D - (F.fl D - D) := by ring
    have := abs_sub (F.fl D) (F.fl D - D)
    rw [← e] at this
    nlinarith
  have hu' : 0 < 1 - u := by linarith
  have d2 : 0 < |F.fl D| := lt_of_lt_of_le (mul_pos hu' hDp) d1
  have dne : F.fl D ≠ 0 := abs_pos.1 d2
  have q1 : |F.fl N / F.fl D| ≤ 11 / 10 * M := by
    rw [abs_div, div_le_iff₀ d2]
    have k : (1 + u) ^ 2 ≤ 11 / 10 * (1 - u) := by nlinarith
    calc |F.fl N| ≤ (1 + u) ^ 2 * M * |D| := n4
      _ ≤ 11 / 10 * (1 - u) * M * |D| := by gcongr
      _ = 11 / 10 * M * ((1 - u) * |D|) := by ring
      _ ≤ 11 / 10 * M * |F.fl D| := by gcongr
  have q2 : |F.fl N / F.fl D - (A - B) / D| ≤ (11 / 10 * u + (2 * u + u ^ 2)) * M := by
    have e : F.fl N / F.fl D - (A - B) / D = (F.fl N / F.fl D * (D - F.fl D) + (F.fl N - (A - B))) / D := by
      field_simp
      ring
    rw [e, abs_div, div_le_iff₀ hDp]
    refine (abs_add_le _ _).trans ?_
    rw [abs_mul, abs_sub_comm D]
    have := mul_le_mul q1 eD (abs_nonneg _) (by positivity)
    calc _ ≤ 11 / 10 * M * (u * |D|) + (2 * u + u ^ 2) * M * |D| := add_le_add this n3
      _ = _ := by ring
  have e6 := hu (F.fl N / F.fl D)
  have e7 := mul_le_mul_of_nonneg_left q1 hu0
  have e : F.fl (F.fl N / F.fl D) - (A - B) / D =
      (F.fl (F.fl N / F.fl D) - F.fl N / F.fl D) + (F.fl N / F.fl D - (A - B) / D) := by ring
  rw [e]
  refine (abs_add_le _ _).trans ((add_le_add (e6.trans e7) q2).trans ?_)
  have hW : 0 ≤ u * M := mul_nonneg hu0 hM
  have e8 : u * (u * M) ≤ 1 / 100 * (u * M) := mul_le_mul_of_nonneg_right hu1 hW
  have e9 : u * (11 / 10 * M) + (11 / 10 * u + (2 * u + u ^ 2)) * M = 42 / 10 * (u * M) + u * (u * M) := by ring
  rw [e9]
  linarith

/-- The value at the new point and the (scaled) value at the end that is kept have opposite signs. -/
theorem rf_signs (v g0 g1 h1 : Fl F) (hv : 0 < v.val * g0.val) (hg : g0.val * g1.val ≤ 0)
    (hw : h1 = g1 ∨ ∃ m : Fl F, 0 < m.val ∧ h1 = g1 * m) : v.val * h1.val ≤ 0 ∧ v.val ≠ h1.val := by
  have key : v.val * h1.val ≤ 0 := by
    have hsg : (0 < h1.val → 0 < g1.val) ∧ (h1.val < 0 → g1.val < 0) := by
      rcases hw with rfl | ⟨m, hm, rfl⟩
      · exact ⟨id, id⟩
      · have s1 : 0 < (g1 * m).val ↔ 0 < g1.val := by
          rw [Fl.val_mul, fl_pos_iff hu hu0 hu1]; exact mul_pos_iff_of_pos_right hm
        have s2 : (g1 * m).val = 0 ↔ g1.val = 0 := by
          rw [Fl.val_mul, fl_zero_iff hu hu0 hu1]; simp [hm.ne']
        refine ⟨s1.1, fun h => ?_⟩
        by_contra hc
        rcases (not_lt.1 hc).lt_or_eq with hc | hc
        · have := s1.2 hc; linarith
        · have := s2.2 hc.symm; linarith
    rcases mul_pos_iff.1 hv with ⟨a, b⟩ | ⟨a, b⟩
    · have h2 : g1.val ≤ 0 := not_lt.1 fun h => absurd (mul_pos b h) (not_lt.2 hg)
      have h3 : h1.val ≤ 0 := not_lt.1 fun h => by linarith [hsg.1 h]
      exact mul_nonpos_of_nonneg_of_nonpos a.le h3
    · have h2 : 0 ≤ g1.val := not_lt.1 fun h => absurd (mul_pos_of_neg_of_neg b h) (not_lt.2 hg)
      have h3 : 0 ≤ h1.val := not_lt.1 fun h => by linarith [hsg.2 h]
      exact mul_nonpos_of_nonpos_of_nonneg a.le h3
  refine ⟨key, fun h => ?_⟩
  rw [← h] at key
  have : v.val ≠ 0 := by rintro hz; rw [hz, zero_mul] at hv; exact lt_irrefl _ hv
  have := mul_self_pos.2 this
  linarith

/-- The new point is between the ends, up to rounding. -/
theorem rf_mid_bounds {M lo hi : ℝ} {c0 c1 f0 f1 : Fl F} (h0 : lo ≤ c0.val ∧ c0.val ≤ hi) (h1 : lo ≤ c1.val ∧ c1.val ≤ hi)
    (b0 : |c0.val| ≤ 2 * M) (b1 : |c1.val| ≤ 2 * M) (hs : f0.val * f1.val ≤ 0) (hDr : f1.val - f0.val ≠ 0) :
    lo - 10 * (u * M) ≤ ((c0 * f1 - c1 * f0) / (f1 - f0)).val ∧ ((c0 * f1 - c1 * f0) / (f1 - f0)).val ≤ hi + 10 * (u * M) := by
  have herr := rf_mid_error hu hu0 hu1 b0 b1 hs hDr
  rw [Fl.val_div, Fl.val_sub, Fl.val_sub, Fl.val_mul, Fl.val_mul]
  have hcomb : lo ≤ (c0.val * f1.val - c1.val * f0.val) / (f1.val - f0.val) ∧
      (c0.val * f1.val - c1.val * f0.val) / (f1.val - f0.val) ≤ hi := by
    rcases lt_or_gt_of_ne hDr with hneg | hpos
    · have hf : f1.val ≤ 0 ∧ 0 ≤ f0.val := by
        rcases mul_nonpos_iff.1 hs with h | h
        · exact ⟨h.2, h.1⟩
        · constructor <;> linarith [h.1, h.2]
      constructor
      · rw [le_div_iff_of_neg hneg]; nlinarith [h0.1, h1.1, hf.1, hf.2]
      · rw [div_le_iff_of_neg hneg]; nlinarith [h0.2, h1.2, hf.1, hf.2]
    · have hf : 0 ≤ f1.val ∧ f0.val ≤ 0 := by
        rcases mul_nonpos_iff.1 hs with h | h
        · constructor <;> linarith [h.1, h.2]
        · exact ⟨h.2, h.1⟩
      constructor
      · rw [le_div_iff₀ hpos]; nlinarith [h0.1, h1.1, hf.1, hf.2]
      · rw [div_le_iff₀ hpos]; nlinarith [h0.2, h1.2, hf.1, hf.2]
  have herr' := abs_le.1 herr
  have e : 5 * u * (2 * M) = 10 * (u * M) := by ring
  rw [e] at herr'
  constructor <;> linarith [herr'.1, herr'.2, hcomb.1, hcomb.2]

theorem rf_loop_bounds {M lo hi : ℝ} (hlo : |lo| ≤ M) (hhi : |hi| ≤ M) (f : ScalarField (Fl F)) (C : Axis) (p : Vec3 (Fl F))
    (n k : Nat) (hk : 10 * ((n + k : Nat) : ℝ) * u ≤ 1) (side : RFSide) (c0 c1 f0 f1 : Fl F)
    (h0 : lo - 10 * k * (u * M) ≤ c0.val ∧ c0.val ≤ hi + 10 * k * (u * M))
    (h1 : lo - 10 * k * (u * M) ≤ c1.val ∧ c1.val ≤ hi + 10 * k * (u * M))
    (hs : f0.val * f1.val ≤ 0) (hne : f0.val ≠ f1.val) :
    ∃ l, rfLoop f C p n side c0 c1 f0 f1 = some l ∧
      ∀ m ∈ l, lo - 10 * ((n + k : Nat) : ℝ) * (u * M) ≤ m.val ∧ m.val ≤ hi + 10 * ((n + k : Nat) : ℝ) * (u * M) := by
  have hM : 0 ≤ M := (abs_nonneg _).trans hlo
  have huM : 0 ≤ u * M := mul_nonneg hu0 hM
  induction n generalizing p k side c0 c1 f0 f1 with
  | zero => exact ⟨[], rfl, by simp⟩
  | succ n ih =>
    have hD : f1 - f0 ≠ 0 := by
      intro h
      have := congrArg Fl.val h
      rw [Fl.val_sub, Fl.val_zero, fl_zero_iff hu hu0 hu1] at this
      exact hne (by linarith)
    simp only [rfLoop, if_neg hD]
    have hDr : f1.val - f0.val ≠ 0 := fun h => hne (by linarith)
    have hkn : (k : ℝ) ≤ ((n + 1 + k : Nat) : ℝ) := by exact_mod_cast (by omega : k ≤ n + 1 + k)
    have hkk : 10 * (k : ℝ) * (u * M) ≤ M := by
      have h2 := mul_le_mul_of_nonneg_right hkn huM
      have h3 := mul_le_mul_of_nonneg_right hk hM
      calc 10 * (k : ℝ) * (u * M) = 10 * (k * (u * M)) := by ring
        _ ≤ 10 * (((n + 1 + k : Nat) : ℝ) * (u * M)) := by linarith
        _ = 10 * ((n + 1 + k : Nat) : ℝ) * u * M := by ring
        _ ≤ 1 * M := h3
        _ = M := one_mul _
    have bM {c : ℝ} (h : lo - 10 * k * (u * M) ≤ c ∧ c ≤ hi + 10 * k * (u * M)) : |c| ≤ 2 * M := by
      rw [abs_le] at hlo hhi ⊢
      constructor <;> linarith [h.1, h.2, hlo.1, hlo.2, hhi.1, hhi.2]
    have hm0 := rf_mid_bounds hu hu0 hu1 h0 h1 (bM h0) (bM h1) hs hDr
    generalize (c0 * f1 - c1 * f0) / (f1 - f0) = mid at hm0 ⊢
    have hm1 : lo - 10 * ((k + 1 : Nat) : ℝ) * (u * M) ≤ mid.val ∧ mid.val ≤ hi + 10 * ((k + 1 : Nat) : ℝ) * (u * M) := by
      push_cast
      constructor <;> linarith [hm0.1, hm0.2]
    have up {c : ℝ} (h : lo - 10 * k * (u * M) ≤ c ∧ c ≤ hi + 10 * k * (u * M)) :
        lo - 10 * ((k + 1 : Nat) : ℝ) * (u * M) ≤ c ∧ c ≤ hi + 10 * ((k + 1 : Nat) : ℝ) * (u * M) := by
      push_cast
      constructor <;> linarith [h.1, h.2]
    have hnk : n + (k + 1) = n + 1 + k := by omega
    have ih' := fun p' side' a b v w => ih p' (k + 1) (by rw [hnk]; exact hk) side' a b v w
    rw [hnk] at ih'
    have last : lo - 10 * ((n + 1 + k : Nat) : ℝ) * (u * M) ≤ mid.val ∧ mid.val ≤ hi + 10 * ((n + 1 + k : Nat) : ℝ) * (u * M) := by
      have : ((k + 1 : Nat) : ℝ) ≤ ((n + 1 + k : Nat) : ℝ) := by exact_mod_cast (by omega : k + 1 ≤ n + 1 + k)
      have := mul_le_mul_of_nonneg_right this huM
      constructor <;> linarith [hm1.1, hm1.2]
    have wpos (a : Fl F) : 0 < (if (1 : Fl F) - a ≤ 0 then (1 / 2 : Fl F) else 1 - a).val := by
      split_ifs with h
      · rw [Fl.val_half]; norm_num
      · rw [Fl.le_iff, Fl.val_zero] at h
        exact not_le.1 h
    have pos_iff (a b : Fl F) : a * b > 0 ↔ 0 < a.val * b.val := by
      show (0 : Fl F) < a * b ↔ _
      rw [Fl.lt_iff, Fl.val_mul, Fl.val_zero, fl_pos_iff hu hu0 hu1]
    have cons {o : Option (List (Fl F))} (h : ∃ l, o = some l ∧ ∀ m ∈ l,
        lo - 10 * ((n + 1 + k : Nat) : ℝ) * (u * M) ≤ m.val ∧ m.val ≤ hi + 10 * ((n + 1 + k : Nat) : ℝ) * (u * M)) :
        ∃ l, o.map (mid :: ·) = some l ∧ ∀ m ∈ l,
        lo - 10 * ((n + 1 + k : Nat) : ℝ) * (u * M) ≤ m.val ∧ m.val ≤ hi + 10 * ((n + 1 + k : Nat) : ℝ) * (u * M) := by
      obtain ⟨l, rfl, hl⟩ := h
      refine ⟨mid :: l, rfl, ?_⟩
      intro m hm
      rcases List.mem_cons.1 hm with rfl | hm
      · exact last
      · exact hl m hm
    by_cases k1 : f.value (p.set C mid) * f0 > 0
    · rw [if_pos k1]
      rw [pos_iff] at k1
      refine cons ?_
      have sg := rf_signs hu hu0 hu1 (f.value (p.set C mid)) f0 f1
        (if side = .lo then f1 * (if (1 : Fl F) - f.value (p.set C mid) / f0 ≤ 0 then (1 / 2 : Fl F) else
          1 - f.value (p.set C mid) / f0) else f1) k1 hs (by
          split_ifs with hsd hq
          · exact Or.inr ⟨1 / 2, by rw [Fl.val_half]; norm_num, rfl⟩
          · exact Or.inr ⟨_, by have := wpos (f.value (p.set C mid) / f0); rwa [if_neg hq] at this, rfl⟩
          · exact Or.inl rfl)
      exact ih' _ _ _ _ _ _ hm1 (up h1) sg.1 sg.2
    · rw [if_neg k1]
      by_cases k2 : f.value (p.set C mid) * f1 > 0
      · rw [if_pos k2]
        rw [pos_iff] at k2
        refine cons ?_
        have sg := rf_signs hu hu0 hu1 (f.value (p.set C mid)) f1 f0
          (if side = .hi then f0 * (if (1 : Fl F) - f.value (p.set C mid) / f1 ≤ 0 then (1 / 2 : Fl F) else
            1 - f.value (p.set C mid) / f1) else f0) k2 (by rw [mul_comm]; exact hs) (by
            split_ifs with hsd hq
            · exact Or.inr ⟨1 / 2, by rw [Fl.val_half]; norm_num, rfl⟩
            · exact Or.inr ⟨_, by have := wpos (f.value (p.set C mid) / f1); rwa [if_neg hq] at this, rfl⟩
            · exact Or.inl rfl)
        exact ih' _ _ _ _ _ _ (up h0) hm1 (by rw [mul_comm]; exact sg.1) sg.2.symm
      · rw [if_neg k2]
        refine ⟨[mid], rfl, ?_⟩
        intro m hm
        rw [List.mem_singleton] at hm
        subst hm
        exact last

/-- C74: regula falsi with rounding to nearest (relative error `u`) never divides by zero when the values at the ends have
opposite signs (or one is zero and the other is not); all points at which it evaluates the field, and its result, are on the
segment up to ten rounding errors of the coordinates per step. -/
theorem C74_regula_falsi_near_segment (steps : Int) (hn : 10 * (stepCount steps : ℝ) * u ≤ 1) (C : Axis) (p : Vec3 (Fl F))
    (c1 f0 f1 : Fl F) (f : ScalarField (Fl F)) {M : ℝ} (h0 : |(p.get C).val| ≤ M) (h1 : |c1.val| ≤ M)
    (hs : f0.val * f1.val ≤ 0) (hne : f0.val ≠ f1.val) :
    ∃ l m, rfSamples steps C p.x p.y p.z c1 f0 f1 f = some l ∧ rfFind steps C p.x p.y p.z c1 f0 f1 f = some m ∧
      ∀ c, c = m ∨ c ∈ l → min (p.get C).val c1.val - 10 * stepCount steps * (u * M) ≤ c.val ∧
        c.val ≤ max (p.get C).val c1.val + 10 * stepCount steps * (u * M) := by
  have huM : 0 ≤ u * M := mul_nonneg hu0 ((abs_nonneg _).trans h0)
  obtain ⟨l, e, hl⟩ := rf_loop_bounds hu hu0 hu1 (M := M) (lo := min (p.get C).val c1.val) (hi := max (p.get C).val c1.val)
    (by rcases min_choice (p.get C).val c1.val with h | h <;> rw [h] <;> assumption)
    (by rcases max_choice (p.get C).val c1.val with h | h <;> rw [h] <;> assumption)
    f C p (stepCount steps) 0 (by simpa using hn) .none (p.get C) c1 f0 f1 (by simp) (by simp) hs hne
  have e' : rfSamples steps C p.x p.y p.z c1 f0 f1 f = some l := e
  rw [Nat.add_zero] at hl
  refine ⟨l, l.getLastD (p.get C), e', by unfold rfFind; rw [e']; rfl, ?_⟩
  intro c hc
  have hst : (0 : ℝ) ≤ 10 * stepCount steps * (u * M) := by positivity
  rcases hc with rfl | hc
  · rcases List.eq_nil_or_concat l with rfl | ⟨l', b, rfl⟩
    · simp only [List.getLastD_nil]
      exact ⟨by linarith [min_le_left (p.get C).val c1.val], by linarith [le_max_left (p.get C).val c1.val]⟩
    · refine hl _ ?_
      simp
  · exact hl c hc

end

/-! ### Drift of the sample positions -/

section
variable {u : ℝ} (hu : RelError F u) (hu0 : 0 ≤ u)
include hu hu0

theorem world_error (hu1 : u ≤ 1) {o step : Fl F} {q : Int} (hq : |q| ≤ 2 ^ 24) {M : ℝ} (hM : |o.val| + |(q : ℝ) * step.val| ≤ M) :
    |((q : Fl F) * step + o).val - (q * step.val + o.val)| ≤ 3 * (u * M) := by
  rw [Fl.val_add, Fl.val_mul, Fl.val_int hq]
  have h1 := hu ((q : ℝ) * step.val)
  have h2 := hu (F.fl ((q : ℝ) * step.val) + o.val)
  have ho := abs_nonneg o.val
  have hqs := abs_nonneg ((q : ℝ) * step.val)
  have hMn : 0 ≤ M := by linarith
  have b1 : u * |(q : ℝ) * step.val| ≤ u * M := mul_le_mul_of_nonneg_left (by linarith) hu0
  have b2 : u * M ≤ M := by simpa using mul_le_mul_of_nonneg_right hu1 hMn
  have b3 : |F.fl ((q : ℝ) * step.val) + o.val| ≤ 2 * M := by
    have e : F.fl ((q : ℝ) * step.val) + o.val = (F.fl ((q : ℝ) * step.val) - q * step.val) + (q * step.val + o.val) := by ring
    rw [e]
    refine (abs_add_le _ _).trans ?_
    have := abs_add_le ((q : ℝ) * step.val) o.val
    linarith
  have b4 := mul_le_mul_of_nonneg_left b3 hu0
  have e : F.fl (F.fl ((q : ℝ) * step.val) + o.val) - (q * step.val + o.val) =
      (F.fl (F.fl ((q : ℝ) * step.val) + o.val) - (F.fl ((q : ℝ) * step.val) + o.val)) +
        (F.fl ((q : ℝ) * step.val) - q * step.val) := by ring
  rw [e]
  refine (abs_add_le _ _).trans ?_
  linarith

theorem stepped_error {a step : Fl F} {x M : ℝ} {n : Nat} (hM : ∀ k ≤ n, |x + k * step.val| ≤ M)
    (h0 : |a.val - x| ≤ 3 * (u * M)) (hn : (2 * n + 3) * u ≤ 1) :
    |(stepped a step n).val - (x + n * step.val)| ≤ (2 * n + 3) * (u * M) := by
  have hMn : 0 ≤ M := (abs_nonneg _).trans (hM 0 (Nat.zero_le _))
  induction n with
  | zero => simpa [stepped] using h0
  | succ n ih =>
    have hn' : (2 * (n : ℝ) + 3) * u ≤ 1 := by push_cast at hn; nlinarith
    have h1 := ih (fun k hk => hM k (by omega)) hn'
    simp only [stepped]
    rw [Fl.val_add]
    have h2 := hu ((stepped a step n).val + step.val)
    have h3 := hM (n + 1) le_rfl
    push_cast at h3 ⊢
    have b1 : (2 * (n : ℝ) + 3) * (u * M) ≤ M := by
      have := mul_le_mul_of_nonneg_right hn' hMn
      linarith
    have b2 : |(stepped a step n).val + step.val| ≤ 2 * M := by
      have e : (stepped a step n).val + step.val = ((stepped a step n).val - (x + n * step.val)) + (x + (n + 1) * step.val) := by
        ring
      rw [e]
      refine (abs_add_le _ _).trans ?_
      linarith
    have b3 := mul_le_mul_of_nonneg_left b2 hu0
    have e : F.fl ((stepped a step n).val + step.val) - (x + (n + 1) * step.val) =
        (F.fl ((stepped a step n).val + step.val) - ((stepped a step n).val + step.val)) +
          ((stepped a step n).val - (x + n * step.val)) := by ring
    rw [e]
    refine (abs_add_le _ _).trans ?_
    linarith

/-- C74: `fill` samples the field at `p * step + origin` up to `2 * size + 3` rounding errors, and searches for the zeros on
edges that start there up to 3 rounding errors; `M` bounds the coordinates of the grid. -/
theorem C74_sample_drift {g : Grid (Fl F)} (hg : g.Reachable) (hs : 0 < g.step) (hus : (2 * (g.size : ℝ) + 3) * u ≤ 1) {M : ℝ}
    (C : Axis) (hM : |(g.globalPos.get C).val| + g.maxCoord * g.step.val ≤ M) {p : IVec3} (hp : InCube g.maxCoord p) :
    |((samplePos g.globalPos g.step g.maxCoord p).get C).val - ((p.get C : ℝ) * g.step.val + (g.globalPos.get C).val)| ≤
      (2 * g.size + 3) * (u * M) ∧
    |((worldPos g.globalPos g.step p).get C).val - ((p.get C : ℝ) * g.step.val + (g.globalPos.get C).val)| ≤ 3 * (u * M) := by
  have hsz := hg.wf.le
  have hhe := hg.wf.half_eq
  have htwo := hg.wf.two_le
  rw [Fl.lt_iff, Fl.val_zero] at hs
  set h := g.maxCoord with hh
  have hh' : h = g.half := rfl
  have hpc : -h ≤ p.get C ∧ p.get C ≤ h := by
    obtain ⟨i1, i2, i3⟩ := hp
    cases C <;> assumption
  have hu1 : u ≤ 1 := by nlinarith [(Nat.cast_nonneg g.size : (0 : ℝ) ≤ g.size)]
  have hMn : 0 ≤ M := by
    have h1 : (0 : ℝ) ≤ h := by exact_mod_cast (by omega : (0 : ℤ) ≤ h)
    have := mul_nonneg h1 hs.le
    linarith [abs_nonneg (g.globalPos.get C).val]
  have bq {q : ℤ} (hq : -h ≤ q ∧ q ≤ h) : |(q : ℝ) * g.step.val| ≤ h * g.step.val := by
    rw [abs_mul, abs_of_pos hs]
    refine mul_le_mul_of_nonneg_right ?_ hs.le
    have : |q| ≤ h := abs_le.2 hq
    exact_mod_cast this
  have q24 {q : ℤ} (hq : -h ≤ q ∧ q ≤ h) : |q| ≤ 2 ^ 24 := by
    rw [abs_le]; constructor <;> norm_num <;> omega
  have hw {q : ℤ} (hq : -h ≤ q ∧ q ≤ h) := world_error hu hu0 hu1 (o := g.globalPos.get C) (step := g.step) (q24 hq) (M := M)
    (by linarith [bq hq])
  have ew (p : IVec3) : (worldPos g.globalPos g.step p).get C = (p.get C : Fl F) * g.step + g.globalPos.get C := by
    cases C <;> rfl
  refine ⟨?_, by rw [ew]; exact hw hpc⟩
  have es : (samplePos g.globalPos g.step h p).get C =
      stepped (((-h : ℤ) : Fl F) * g.step + g.globalPos.get C) g.step (p.get C + h).toNat := by
    cases C <;> rfl
  rw [es]
  have hk : ((p.get C + h).toNat : ℝ) = p.get C + h := by
    have : (((p.get C + h).toNat : ℤ) : ℝ) = ((p.get C + h : ℤ) : ℝ) := by rw [Int.toNat_of_nonneg (by omega)]
    push_cast at this
    exact this
  have hks : ((p.get C + h).toNat : ℝ) ≤ g.size := by
    have : (p.get C + h).toNat ≤ g.size := by omega
    exact_mod_cast this
  have key := stepped_error hu hu0 (a := ((-h : ℤ) : Fl F) * g.step + g.globalPos.get C) (step := g.step)
    (x := ((-h : ℤ) : ℝ) * g.step.val + (g.globalPos.get C).val) (M := M) (n := (p.get C + h).toNat) (by
      intro k hk
      have e : ((-h : ℤ) : ℝ) * g.step.val + (g.globalPos.get C).val + k * g.step.val =
          ((-h + k : ℤ) : ℝ) * g.step.val + (g.globalPos.get C).val := by push_cast; ring
      rw [e]
      refine (abs_add_le _ _).trans ?_
      have := bq (q := -h + k) (by omega)
      linarith) (hw (q := -h) (by omega)) (by nlinarith)
  have e : ((-h : ℤ) : ℝ) * g.step.val + (g.globalPos.get C).val + ((p.get C + h).toNat : ℝ) * g.step.val =
      (p.get C : ℝ) * g.step.val + (g.globalPos.get C).val := by rw [hk]; push_cast; ring
  rw [e] at key
  refine key.trans ?_
  have := mul_nonneg hu0 hMn
  nlinarith

end

end
end Isomesh
