import Verif.Model.Float
import Verif.Arith

/-! Rounded arithmetic satisfies `RoundedLaws`. -/

namespace Isomesh
variable {F : FloatFormat}

theorem Fl.large (x : ℝ) : ∃ a : Fl F, x ≤ a.val := by
  obtain ⟨n, hn⟩ := pow_unbounded_of_one_lt x (one_lt_two (α := ℝ))
  have h : ∀ n : Nat, F.Rep (2 ^ n) := by
    intro n
    induction n with
    | zero => have := F.rep_int 1 (by norm_num); simpa using this
    | succ n ih => have := F.rep_double _ ih; rwa [← pow_succ'] at this
  exact ⟨⟨2 ^ n, h n⟩, hn.le⟩

theorem Fl.le_round {a : Fl F} {x : ℝ} (h : a.val ≤ x) : a.val ≤ F.fl x := by
  rw [← F.fl_rep _ a.rep]; exact F.mono h

theorem Fl.nonneg_round {x : ℝ} (h : 0 ≤ x) : 0 ≤ F.fl x := by
  have := Fl.le_round (F := F) (a := 0) (x := x) (by rw [Fl.val_zero]; exact h)
  rwa [Fl.val_zero] at this

/-- All formats and rounding modes. -/
instance : RoundedLaws (Fl F) where
  fabs_zero := by apply Fl.ext; simp
  cast_mono a b h := F.mono (Int.cast_le.2 h)
  cast_succ a := by
    rw [Fl.le_iff, Fl.val_add, Fl.val_one]
    exact Fl.le_round (by linarith)
  cast_add_one a h := by
    have h' := abs_lt.1 h
    apply Fl.ext
    rw [Fl.val_add, Fl.val_one, Fl.val_int (n := a) (by linarith), Fl.val_int (n := a + 1) (by rw [abs_le]; constructor <;> linarith [h'.1, h'.2])]
    have := Fl.fl_int F (n := a + 1) (by rw [abs_le]; constructor <;> linarith [h'.1, h'.2])
    push_cast at this ⊢
    exact this.symm
  div_mono a b c hc h := by
    rw [Fl.le_iff, Fl.val_div, Fl.val_div]
    rw [Fl.lt_iff, Fl.val_zero] at hc
    apply F.mono
    have := Fl.le_iff.1 h
    gcongr
  div_large b c hc := by
    rw [Fl.lt_iff, Fl.val_zero] at hc
    obtain ⟨a, ha⟩ := Fl.large (F := F) (b.val * c.val)
    exact ⟨a, Fl.le_round (by rwa [le_div_iff₀ hc])⟩
  sq_nonneg a b h := by
    rw [Fl.le_iff, Fl.val_zero] at h ⊢
    rw [Fl.val_add, Fl.val_mul]
    exact Fl.nonneg_round (add_nonneg h (Fl.nonneg_round (mul_self_nonneg _)))
  default_nonneg := by
    constructor <;>
    · rw [Fl.le_iff, Fl.val_zero]
      exact Fl.nonneg_round (by norm_num)

end Isomesh
