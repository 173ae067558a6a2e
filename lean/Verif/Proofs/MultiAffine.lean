import Mathlib.Algebra.Order.Field.Basic
import Mathlib.Tactic.Linarith
import Mathlib.Tactic.Ring
import Mathlib.Tactic.Positivity
import Mathlib.Algebra.BigOperators.Group.List.Basic

/-! Polynomials with at most the first power of each variable: not negative on the unit cube if not negative at its corners. -/

namespace Isomesh

/-! ### Polynomials -/

/-- A monomial: variables and coefficient. -/
abbrev Mono := List Nat × Int

def pmul (p q : List Mono) : List Mono := p.flatMap fun m => q.map fun n => (m.1 ++ n.1, m.2 * n.2)
def pneg (p : List Mono) : List Mono := p.map fun m => (m.1, -m.2)
def pvar (i : Nat) : List Mono := [([i], 1)]
def pconst (c : Int) : List Mono := [([], c)]

/-- Variable `e` becomes 0. -/
def sub0 (e : Nat) (p : List Mono) : List Mono := p.filter fun m => !m.1.contains e

/-- Variable `e` becomes 1. -/
def sub1 (e : Nat) (p : List Mono) : List Mono := p.map fun m => (m.1.erase e, m.2)

/-- A lower bound. -/
def lowest : List Mono → Int
  | [] => 0
  | m :: p => (if m.1 = [] then m.2 else min m.2 0) + lowest p

/-- Not negative, by trying 0 and 1 for the given variables. -/
def nonneg : List Nat → List Mono → Bool
  | [], p => decide (0 ≤ lowest p)
  | e :: es, p => decide (0 ≤ lowest p) || (nonneg es (sub0 e p) && nonneg es (sub1 e p))

/-- Addition of a monomial, combined with an equal one. -/
def norm1 (m : Mono) : List Mono → List Mono
  | [] => [m]
  | n :: p => if m.1.isPerm n.1 then (if m.2 + n.2 = 0 then p else (n.1, m.2 + n.2) :: p) else n :: norm1 m p

def norm (p : List Mono) : List Mono := p.foldr norm1 []

variable {K : Type} [Field K] [LinearOrder K] [IsStrictOrderedRing K]

def evalMono (t : Nat → K) (m : Mono) : K := (m.2 : K) * (m.1.map t).prod
def evalPoly (t : Nat → K) (p : List Mono) : K := (p.map (evalMono t)).sum

theorem eval_nil (t : Nat → K) : evalPoly t [] = 0 := rfl

theorem eval_cons (t : Nat → K) (m : Mono) (p : List Mono) : evalPoly t (m :: p) = evalMono t m + evalPoly t p := by
  simp [evalPoly]

theorem eval_append (t : Nat → K) (p q : List Mono) : evalPoly t (p ++ q) = evalPoly t p + evalPoly t q := by
  simp [evalPoly]

theorem eval_neg (t : Nat → K) (p : List Mono) : evalPoly t (pneg p) = - evalPoly t p := by
  induction p with
  | nil => simp [pneg, evalPoly]
  | cons m p ih =>
    rw [eval_cons, pneg, List.map_cons, eval_cons]
    rw [pneg] at ih
    rw [ih]
    simp only [evalMono]
    push_cast
    ring

theorem eval_mul (t : Nat → K) (p q : List Mono) : evalPoly t (pmul p q) = evalPoly t p * evalPoly t q := by
  induction p with
  | nil => simp [pmul, evalPoly]
  | cons m p ih =>
    rw [eval_cons, pmul, List.flatMap_cons, eval_append]
    rw [pmul] at ih
    rw [ih, add_mul]
    congr 1
    clear ih
    induction q with
    | nil => simp [evalPoly]
    | cons n q ih2 =>
      rw [List.map_cons, eval_cons, eval_cons, ih2]
      simp only [evalMono, List.map_append, List.prod_append]
      push_cast
      ring

theorem eval_var (t : Nat → K) (i : Nat) : evalPoly t (pvar i) = t i := by simp [evalPoly, pvar, evalMono]
theorem eval_const (t : Nat → K) (c : Int) : evalPoly t (pconst c) = (c : K) := by simp [evalPoly, pconst, evalMono]

theorem eval_flatMap {α : Type} (t : Nat → K) (f : α → List Mono) (l : List α) : evalPoly t (l.flatMap f) = (l.map fun x => evalPoly t (f x)).sum := by
  induction l with
  | nil => rfl
  | cons x l ih => rw [List.flatMap_cons, eval_append, ih]; simp

theorem eval_norm1 (t : Nat → K) (m : Mono) (p : List Mono) : evalPoly t (norm1 m p) = evalMono t m + evalPoly t p := by
  induction p with
  | nil => simp [norm1, evalPoly]
  | cons n p ih =>
    rw [norm1]
    split_ifs with h1 h2
    · have hp := (List.isPerm_iff.mp h1).map t
      rw [eval_cons, ← add_assoc]
      have : evalMono t m + evalMono t n = 0 := by
        simp only [evalMono]
        rw [hp.prod_eq, ← add_mul, ← Int.cast_add, h2]
        simp
      rw [this, zero_add]
    · have hp := (List.isPerm_iff.mp h1).map t
      rw [eval_cons, eval_cons, ← add_assoc]
      congr 1
      simp only [evalMono]
      rw [hp.prod_eq, ← add_mul, ← Int.cast_add]
    · rw [eval_cons, eval_cons, ih]
      ring

theorem eval_norm (t : Nat → K) (p : List Mono) : evalPoly t (norm p) = evalPoly t p := by
  induction p with
  | nil => rfl
  | cons m p ih =>
    rw [norm, List.foldr_cons, eval_norm1, eval_cons]
    rw [norm] at ih
    rw [ih]

theorem prod_unit {t : Nat → K} (ht : ∀ i, 0 ≤ t i ∧ t i ≤ 1) (l : List Nat) : 0 ≤ (l.map t).prod ∧ (l.map t).prod ≤ 1 := by
  induction l with
  | nil => simp
  | cons i l ih =>
    rw [List.map_cons, List.prod_cons]
    exact ⟨mul_nonneg (ht i).1 ih.1, mul_le_one₀ (ht i).2 ih.1 ih.2⟩

theorem lowest_le {t : Nat → K} (ht : ∀ i, 0 ≤ t i ∧ t i ≤ 1) (p : List Mono) : (lowest p : K) ≤ evalPoly t p := by
  induction p with
  | nil => simp [lowest, evalPoly]
  | cons m p ih =>
    rw [eval_cons, lowest]
    push_cast
    refine add_le_add ?_ ih
    simp only [evalMono]
    split_ifs with h
    · simp [h]
    · obtain ⟨h0, h1⟩ := prod_unit ht m.1
      rcases le_total 0 m.2 with hm | hm
      · have hk : (0 : K) ≤ (m.2 : K) := by exact_mod_cast hm
        rw [min_eq_right hk]
        positivity
      · have hk : (m.2 : K) ≤ 0 := by exact_mod_cast hm
        rw [min_eq_left hk]
        nlinarith

theorem eval_split (t : Nat → K) (e : Nat) (p : List Mono) (hp : ∀ m ∈ p, m.1.Nodup) :
    evalPoly t p = (1 - t e) * evalPoly t (sub0 e p) + t e * evalPoly t (sub1 e p) := by
  induction p with
  | nil => simp [sub0, sub1, evalPoly]
  | cons m p ih =>
    have ih := ih fun n hn => hp n (List.mem_cons_of_mem _ hn)
    have hm := hp m (List.mem_cons_self)
    rw [eval_cons, sub1, List.map_cons, eval_cons]
    rw [sub1] at ih
    by_cases he : e ∈ m.1
    · have : sub0 e (m :: p) = sub0 e p := by simp [sub0, he]
      rw [this, ih]
      have h2 : (m.1.map t).prod = t e * ((m.1.erase e).map t).prod := by
        rw [((List.perm_cons_erase he).map t).prod_eq]
        simp
      simp only [evalMono]
      rw [h2]
      ring
    · have : sub0 e (m :: p) = m :: sub0 e p := by simp [sub0, he]
      rw [this, ih, eval_cons]
      simp only [evalMono]
      rw [List.erase_of_not_mem he]
      ring

theorem nonneg_sound {t : Nat → K} (ht : ∀ i, 0 ≤ t i ∧ t i ≤ 1) : ∀ (es : List Nat) (p : List Mono), (∀ m ∈ p, m.1.Nodup) → nonneg es p = true → 0 ≤ evalPoly t p
  | [], p, _, h => by
    have h : 0 ≤ lowest p := by simpa [nonneg] using h
    exact le_trans (by exact_mod_cast h) (lowest_le ht p)
  | e :: es, p, hp, h => by
    rw [nonneg, Bool.or_eq_true, Bool.and_eq_true] at h
    rcases h with h | ⟨h0, h1⟩
    · have h : 0 ≤ lowest p := by simpa using h
      exact le_trans (by exact_mod_cast h) (lowest_le ht p)
    · have k0 := nonneg_sound ht es _ (fun m hm => hp m (List.mem_of_mem_filter hm)) h0
      have k1 := nonneg_sound ht es _ (fun m hm => by
        obtain ⟨n, hn, rfl⟩ := List.mem_map.mp hm
        exact (hp n hn).erase e) h1
      rw [eval_split t e p hp]
      exact add_nonneg (mul_nonneg (by linarith [(ht e).2]) k0) (mul_nonneg (ht e).1 k1)

end Isomesh
