import Mathlib.Logic.Relation
import Mathlib.Data.Nat.Bitwise

/-! Reachability in small graphs given by neighbour masks, computed with bit masks. -/

namespace Isomesh

/-- The set `{b < n | p b}` as a bit mask. -/
def maskOf (p : Nat → Bool) : Nat → Nat
  | 0 => 0
  | n + 1 => if p n then maskOf p n ||| (1 <<< n) else maskOf p n

theorem testBit_maskOf (p : Nat → Bool) (n b : Nat) : (maskOf p n).testBit b = (decide (b < n) && p b) := by
  induction n with
  | zero => simp [maskOf]
  | succ n ih =>
    unfold maskOf
    by_cases hb : b = n
    · subst hb
      cases hp : p b <;> simp [ih, hp, Nat.testBit_shiftLeft]
    · have h1 : decide (b < n + 1) = decide (b < n) := by
        by_cases h : b < n <;> simp [h] <;> omega
      split
      · have h2 : (1 <<< n).testBit b = false := by
          rw [Nat.testBit_shiftLeft]
          by_cases h : b ≥ n
          · have : b - n ≠ 0 := by omega
            have h3 : Nat.testBit 1 (b - n) = false := by
              rw [Bool.eq_false_iff]
              intro ht
              exact this (Nat.testBit_one_eq_true_iff_self_eq_zero.1 ht)
            simp [h3]
          · simp [h]
        rw [Nat.testBit_lor, ih, h1, h2, Bool.or_false]
      · rw [ih, h1]

/-- Add the neighbours of every member of `S` among `0..n-1`. -/
def spread (nb : Nat → Nat) : Nat → Nat → Nat
  | 0, S => S
  | n + 1, S => spread nb n (if S.testBit n then S ||| nb n else S)

def reachMask (nb : Nat → Nat) (n : Nat) : Nat → Nat → Nat
  | 0, S => S
  | k + 1, S => reachMask nb n k (spread nb n S)

theorem spread_sound {nb : Nat → Nat} {R : Nat → Nat → Prop} (hR : ∀ a b, (nb a).testBit b = true → R a b)
    {c : Nat} (n : Nat) : ∀ S : Nat, (∀ d, S.testBit d = true → Relation.ReflTransGen R c d) →
      ∀ d, (spread nb n S).testBit d = true → Relation.ReflTransGen R c d := by
  induction n with
  | zero => intro S h; exact h
  | succ n ih =>
    intro S h
    refine ih _ ?_
    intro d hd
    split at hd
    · rename_i hn
      rw [Nat.testBit_lor, Bool.or_eq_true] at hd
      rcases hd with hd | hd
      · exact h d hd
      · exact (h n hn).tail (hR _ _ hd)
    · exact h d hd

theorem reachMask_sound {nb : Nat → Nat} {R : Nat → Nat → Prop} (hR : ∀ a b, (nb a).testBit b = true → R a b)
    {c : Nat} (n k : Nat) : ∀ S : Nat, (∀ d, S.testBit d = true → Relation.ReflTransGen R c d) →
      ∀ d, (reachMask nb n k S).testBit d = true → Relation.ReflTransGen R c d := by
  induction k with
  | zero => intro S h; exact h
  | succ k ih => intro S h; exact ih _ (spread_sound hR n S h)

/-- A set closed under `R` containing the start contains everything reachable. -/
theorem reach_closed {R : Nat → Nat → Prop} {P : Nat → Prop} {c d : Nat} (hc : P c)
    (hcl : ∀ a b, R a b → P a → P b) (h : Relation.ReflTransGen R c d) : P d := by
  induction h with
  | refl => exact hc
  | tail _ hab ih => exact hcl _ _ hab ih

end Isomesh
