import Verif.Model.Float
import Mathlib.Tactic.Positivity
import Mathlib.Tactic.FieldSimp

/-! Binary floating point formats are instances of `FloatFormat`, for every precision and every rounding mode. -/

namespace Isomesh

noncomputable section

section
variable {p : Nat} {x : ℝ}

theorem ulp_pos (p : Nat) (x : ℝ) : 0 < ulp p x := zpow_pos two_pos _

theorem ulp_mul (p : Nat) (x : ℝ) : (2 : ℝ) ^ p * ulp p x = 2 ^ (Int.log 2 |x| + 1) := by
  unfold ulp
  rw [← zpow_natCast, ← zpow_add₀ two_ne_zero]
  congr 1
  omega

theorem ulp_mul' (hp : 1 ≤ p) (x : ℝ) : (2 : ℝ) ^ (p - 1) * ulp p x = 2 ^ Int.log 2 |x| := by
  unfold ulp
  rw [← zpow_natCast, ← zpow_add₀ two_ne_zero]
  congr 1
  omega

theorem log_le (h : x ≠ 0) : (2 : ℝ) ^ Int.log 2 |x| ≤ |x| := by
  have := Int.zpow_log_le_self (R := ℝ) (b := 2) (by norm_num) (abs_pos.2 h)
  exact_mod_cast this

theorem lt_log (x : ℝ) : |x| < (2 : ℝ) ^ (Int.log 2 |x| + 1) := by
  have := Int.lt_zpow_succ_log_self (R := ℝ) (b := 2) (by norm_num) |x|
  exact_mod_cast this

/-- The scaled number has `p` bits before the point. -/
theorem scaled_lt (p : Nat) (x : ℝ) : |x / ulp p x| < 2 ^ p := by
  rw [abs_div, abs_of_pos (ulp_pos p x), div_lt_iff₀ (ulp_pos p x), ulp_mul]
  exact lt_log x

theorem le_scaled (hp : 1 ≤ p) (h : x ≠ 0) : 2 ^ (p - 1) ≤ |x / ulp p x| := by
  rw [abs_div, abs_of_pos (ulp_pos p x), le_div_iff₀ (ulp_pos p x), ulp_mul' hp]
  exact log_le h

variable {r : ℝ → ℤ} (hm : Monotone r) (hi : ∀ n : ℤ, r n = n)
include hm hi

theorem r_le {y : ℝ} {n : ℤ} (h : y ≤ n) : r y ≤ n := by rw [← hi n]; exact hm h
theorem le_r {y : ℝ} {n : ℤ} (h : (n : ℝ) ≤ y) : n ≤ r y := by rw [← hi n]; exact hm h

theorem flBits_rep (p : Nat) (x : ℝ) : RepBits p (flBits p r x) := by
  unfold flBits
  split_ifs with h
  · exact ⟨0, 0, by simp, by simp⟩
  · refine ⟨r (x / ulp p x), Int.log 2 |x| + 1 - p, ?_, rfl⟩
    have := abs_lt.1 (scaled_lt p x)
    rw [abs_le]
    constructor
    · refine le_r hm hi ?_
      push_cast
      exact this.1.le
    · refine r_le hm hi ?_
      push_cast
      exact this.2.le

omit hm in
theorem flBits_id (hp : 1 ≤ p) (h : RepBits p x) : flBits p r x = x := by
  unfold flBits
  split_ifs with h0
  · exact h0.symm
  obtain ⟨m, e, hme, rfl⟩ := h
  have hm0 : (m : ℝ) ≠ 0 := left_ne_zero_of_mul h0
  set x : ℝ := (m : ℝ) * 2 ^ e with hx
  have key : ∃ n : ℤ, x / ulp p x = n := by
    have hu := ulp_pos p x
    by_cases hc : Int.log 2 |x| + 1 - p ≤ e
    · refine ⟨m * 2 ^ (e - (Int.log 2 |x| + 1 - p)).toNat, ?_⟩
      rw [div_eq_iff hu.ne']
      unfold ulp
      push_cast
      rw [mul_assoc, ← zpow_natCast, ← zpow_add₀ two_ne_zero, Int.toNat_of_nonneg (by omega)]
      rw [hx]
      congr 2
      omega
    · -- a power of two
      have h1 := log_le h0
      have h2 : |x| = |m| * 2 ^ e := by
        rw [hx, abs_mul, abs_of_pos (a := (2 : ℝ) ^ e) (zpow_pos two_pos _)]
        push_cast
        rfl
      have h3 : (|m| : ℝ) ≤ 2 ^ p := by exact_mod_cast hme
      have h4 : (2 : ℝ) ^ p * 2 ^ e ≤ 2 ^ Int.log 2 |x| := by
        rw [← zpow_natCast, ← zpow_add₀ two_ne_zero]
        exact zpow_le_zpow_right₀ (by norm_num) (by omega)
      have h5 : |x| ≤ 2 ^ Int.log 2 |x| := by
        refine le_trans (le_trans h2.le ?_) h4
        push_cast
        exact mul_le_mul_of_nonneg_right h3 (zpow_pos two_pos _).le
      have h6 : |x| = 2 ^ (p - 1) * ulp p x := by rw [ulp_mul' hp]; exact le_antisymm h5 h1
      rcases abs_cases x with ⟨ha, _⟩ | ⟨ha, _⟩
      · refine ⟨2 ^ (p - 1), ?_⟩
        rw [div_eq_iff hu.ne']
        push_cast
        rw [← h6, ha]
      · refine ⟨-2 ^ (p - 1), ?_⟩
        rw [div_eq_iff hu.ne']
        push_cast
        rw [neg_mul, ← h6, ha, neg_neg]
  obtain ⟨n, hn⟩ := key
  rw [hn, hi, ← hn, div_mul_cancel₀ _ (ulp_pos p x).ne']

theorem flBits_nonneg (h : 0 ≤ x) : 0 ≤ flBits p r x := by
  unfold flBits
  split_ifs
  · exact le_rfl
  · refine mul_nonneg ?_ (ulp_pos p x).le
    have : (0 : ℤ) ≤ r (x / ulp p x) := le_r hm hi (by
      push_cast
      exact div_nonneg h (ulp_pos p x).le)
    exact_mod_cast this

theorem flBits_nonpos (h : x ≤ 0) : flBits p r x ≤ 0 := by
  unfold flBits
  split_ifs
  · exact le_rfl
  · refine mul_nonpos_of_nonpos_of_nonneg ?_ (ulp_pos p x).le
    have : r (x / ulp p x) ≤ (0 : ℤ) := r_le hm hi (by
      push_cast
      exact div_nonpos_of_nonpos_of_nonneg h (ulp_pos p x).le)
    exact_mod_cast this

/-- Rounding stays within the binade. -/
theorem flBits_abs_le (h : x ≠ 0) : |flBits p r x| ≤ 2 ^ (Int.log 2 |x| + 1) := by
  have := scaled_lt p x
  rw [abs_lt] at this
  unfold flBits
  rw [if_neg h, abs_mul, abs_of_pos (ulp_pos p x), ← ulp_mul p x]
  refine mul_le_mul_of_nonneg_right ?_ (ulp_pos p x).le
  have : |r (x / ulp p x)| ≤ 2 ^ p := abs_le.2 ⟨le_r hm hi (by push_cast; exact this.1.le),
    r_le hm hi (by push_cast; exact this.2.le)⟩
  exact_mod_cast this

theorem le_flBits_abs (hp : 1 ≤ p) (h : x ≠ 0) : 2 ^ Int.log 2 |x| ≤ |flBits p r x| := by
  have h1 := le_scaled hp h
  unfold flBits
  rw [if_neg h, abs_mul, abs_of_pos (ulp_pos p x), ← ulp_mul' hp]
  refine mul_le_mul_of_nonneg_right ?_ (ulp_pos p x).le
  have : (2 : ℤ) ^ (p - 1) ≤ |r (x / ulp p x)| := by
    rcases le_abs.1 h1 with h | h
    · exact (le_r hm hi (by push_cast; exact h)).trans (le_abs_self _)
    · refine le_trans ?_ (neg_le_abs _)
      have : r (x / ulp p x) ≤ -2 ^ (p - 1) := r_le hm hi (by push_cast; linarith)
      linarith
  exact_mod_cast this

theorem flBits_mono (hp : 1 ≤ p) : Monotone (flBits p r) := by
  intro x y hxy
  rcases le_or_gt x 0 with hx | hx
  · rcases le_or_gt 0 y with hy | hy
    · exact (flBits_nonpos hm hi hx).trans (flBits_nonneg hm hi hy)
    · -- both negative
      have hx0 : x ≠ 0 := by rintro rfl; linarith
      have hy0 : y ≠ 0 := hy.ne
      have hle : Int.log 2 |y| ≤ Int.log 2 |x| := by
        refine Int.log_mono_right (abs_pos.2 hy0) ?_
        rw [abs_of_neg hy, abs_of_nonpos hx]
        linarith
      rcases eq_or_lt_of_le hle with e | e
      · have hu : ulp p y = ulp p x := by unfold ulp; rw [e]
        unfold flBits
        rw [if_neg hx0, if_neg hy0, hu]
        refine mul_le_mul_of_nonneg_right ?_ (ulp_pos p x).le
        exact_mod_cast hm (div_le_div_of_nonneg_right hxy (ulp_pos p x).le)
      · have h1 := le_flBits_abs (r := r) hm hi hp hx0
        have h2 := flBits_abs_le (p := p) (r := r) hm hi hy0
        rw [abs_of_nonpos (flBits_nonpos hm hi hx)] at h1
        rw [abs_of_nonpos (flBits_nonpos hm hi hy.le)] at h2
        have h3 : (2 : ℝ) ^ (Int.log 2 |y| + 1) ≤ 2 ^ Int.log 2 |x| := zpow_le_zpow_right₀ (by norm_num) (by omega)
        linarith
  · have hy : 0 < y := lt_of_lt_of_le hx hxy
    have hle : Int.log 2 |x| ≤ Int.log 2 |y| := by
      refine Int.log_mono_right (abs_pos.2 hx.ne') ?_
      rw [abs_of_pos hy, abs_of_pos hx]
      exact hxy
    rcases eq_or_lt_of_le hle with e | e
    · have hu : ulp p y = ulp p x := by unfold ulp; rw [e]
      unfold flBits
      rw [if_neg hx.ne', if_neg hy.ne', hu]
      refine mul_le_mul_of_nonneg_right ?_ (ulp_pos p x).le
      exact_mod_cast hm (div_le_div_of_nonneg_right hxy (ulp_pos p x).le)
    · have h1 := le_flBits_abs (r := r) hm hi hp hy.ne'
      have h2 := flBits_abs_le (p := p) (r := r) hm hi hx.ne'
      rw [abs_of_nonneg (flBits_nonneg hm hi hy.le)] at h1
      rw [abs_of_nonneg (flBits_nonneg hm hi hx.le)] at h2
      have h3 : (2 : ℝ) ^ (Int.log 2 |x| + 1) ≤ 2 ^ Int.log 2 |y| := zpow_le_zpow_right₀ (by norm_num) (by omega)
      linarith

end

/-! ### Rounding to nearest -/

section
variable {p : Nat} {x : ℝ} {r : ℝ → ℤ} (hn : ∀ y, |(r y : ℝ) - y| ≤ 1 / 2)
include hn

theorem nearest_int (n : ℤ) : r n = n := by
  have h := abs_le.1 (hn n)
  have h1 : ((r n : ℤ) : ℝ) < ((n + 1 : ℤ) : ℝ) := by push_cast; linarith
  have h2 : ((n - 1 : ℤ) : ℝ) < ((r n : ℤ) : ℝ) := by push_cast; linarith
  have h1' := Int.cast_lt.1 h1
  have h2' := Int.cast_lt.1 h2
  omega

/-- Relative error of rounding to nearest. -/
theorem nearest_error (hp : 1 ≤ p) (x : ℝ) : |flBits p r x - x| ≤ 1 / 2 ^ p * |x| := by
  unfold flBits
  split_ifs with h
  · simp [h]
  · have hu := ulp_pos p x
    have e : (r (x / ulp p x) : ℝ) * ulp p x - x = (r (x / ulp p x) - x / ulp p x) * ulp p x := by
      rw [sub_mul, div_mul_cancel₀ _ hu.ne']
    rw [e, abs_mul, abs_of_pos hu]
    have h1 := ulp_mul' hp x
    have h2 := log_le h
    have h3 : ulp p x ≤ |x| / 2 ^ (p - 1) := by
      rw [le_div_iff₀ (by positivity), mul_comm, h1]
      exact h2
    have h4 : (2 : ℝ) ^ p = 2 * 2 ^ (p - 1) := by
      rw [← pow_succ']
      congr 1
      omega
    calc |(r (x / ulp p x) : ℝ) - x / ulp p x| * ulp p x ≤ 1 / 2 * (|x| / 2 ^ (p - 1)) :=
          mul_le_mul (hn _) h3 hu.le (by norm_num)
      _ = _ := by rw [h4]; field_simp

/-- Evaluation of a rounding to nearest: the nearest multiple of the unit in the last place. -/
theorem nearest_eval {k m : ℤ} (h1 : (2 : ℝ) ^ k ≤ |x|) (h2 : |x| < 2 ^ (k + 1))
    (h3 : |x - m * 2 ^ (k + 1 - p)| < 2 ^ (k + 1 - p) / 2) : flBits p r x = m * 2 ^ (k + 1 - p) := by
  have h0 : x ≠ 0 := by
    rintro rfl
    rw [abs_zero] at h1
    exact absurd h1 (not_le.2 (zpow_pos two_pos _))
  have hlog : Int.log 2 |x| = k := by
    apply le_antisymm
    · have : Int.log 2 |x| < k + 1 := by
        rw [← Int.lt_zpow_iff_log_lt (by norm_num) (abs_pos.2 h0)]
        exact_mod_cast h2
      omega
    · rw [← Int.zpow_le_iff_le_log (by norm_num) (abs_pos.2 h0)]
      exact_mod_cast h1
  unfold flBits
  rw [if_neg h0]
  have hu : ulp p x = 2 ^ (k + 1 - p) := by unfold ulp; rw [hlog]
  have hpos := ulp_pos p x
  rw [hu] at hpos ⊢
  congr 2
  have h4 : |x / 2 ^ (k + 1 - p) - m| < 1 / 2 := by
    have e : x / 2 ^ (k + 1 - p) - m = (x - m * 2 ^ (k + 1 - p)) / 2 ^ (k + 1 - p) := by
      rw [sub_div, mul_div_cancel_right₀ _ hpos.ne']
    rw [e, abs_div, abs_of_pos hpos, div_lt_iff₀ hpos]
    linarith
  have h5 := hn (x / 2 ^ (k + 1 - p))
  rw [abs_lt] at h4
  rw [abs_le] at h5
  have h6 : ((r (x / 2 ^ (k + 1 - p)) : ℤ) : ℝ) < ((m + 1 : ℤ) : ℝ) := by push_cast; linarith
  have h7 : ((m - 1 : ℤ) : ℝ) < ((r (x / 2 ^ (k + 1 - p)) : ℤ) : ℝ) := by push_cast; linarith
  have h6' := Int.cast_lt.1 h6
  have h7' := Int.cast_lt.1 h7
  omega

end

/-- Binary numbers of `p ≥ 24` bits with unbounded exponent and any rounding `r` to integers (down, up, to zero, to nearest
with any rule for ties). -/
def binaryFormat (p : Nat) (hp : 24 ≤ p) (r : ℝ → ℤ) (hm : Monotone r) (hi : ∀ n : ℤ, r n = n) : FloatFormat where
  Rep := RepBits p
  fl := flBits p r
  rep_fl := flBits_rep hm hi p
  fl_rep := fun _ h => flBits_id hi (by omega) h
  mono := flBits_mono hm hi (by omega)
  rep_neg := by
    rintro _ ⟨m, e, h, rfl⟩
    exact ⟨-m, e, by rwa [abs_neg], by push_cast; ring⟩
  rep_double := by
    rintro _ ⟨m, e, h, rfl⟩
    exact ⟨m, e + 1, h, by rw [zpow_add₀ two_ne_zero, zpow_one]; ring⟩
  rep_half := ⟨1, -1, by simp [one_le_pow₀], by norm_num⟩
  rep_int := by
    intro n h
    refine ⟨n, 0, h.trans ?_, by simp⟩
    exact_mod_cast Nat.pow_le_pow_right (n := 2) (by norm_num) hp

end
end Isomesh
