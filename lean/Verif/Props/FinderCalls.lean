import Verif.Model.FillCalls
import Verif.Props.ZeroFinder

/-! C87: the zero finders with a field that need not be a function. -/

namespace Isomesh
open Spec Set

variable {K : Type} [Field K] [LinearOrder K] [IsStrictOrderedRing K]

theorem last_cons (a b : K) (l : List K) : l.getLastD a = (a :: l).getLastD b := by cases l <;> rfl

theorem bisectLoopH_spec (ask : List K → K → K) (n : Nat) (seen : List K) (c0 c1 f0 f1 : K) :
    ∃ l, (bisectLoopH ask n seen c0 c1 f0 f1).2 = seen ++ l ∧ l.length ≤ n ∧ (∀ c ∈ l, c ∈ uIcc c0 c1) ∧
      (bisectLoopH ask n seen c0 c1 f0 f1).1 ∈ uIcc c0 c1 ∧
      ((bisectLoopH ask n seen c0 c1 f0 f1).1 = c0 ∨ (bisectLoopH ask n seen c0 c1 f0 f1).1 = c1 ∨
        (bisectLoopH ask n seen c0 c1 f0 f1).1 ∈ l) := by
  induction n generalizing seen c0 c1 f0 f1 with
  | zero =>
    refine ⟨[], by simp [bisectLoopH], by simp, by simp, ?_, ?_⟩
    · simp only [bisectLoopH]; split_ifs <;> simp
    · simp only [bisectLoopH]; split_ifs <;> simp
  | succ n ih =>
    have hm := mid_mem c0 c1
    simp only [bisectLoopH]
    generalize (c0 + c1) * (1 / 2) = mid at *
    split_ifs
    · obtain ⟨l, e, h1, h2, h3, h4⟩ := ih (seen ++ [mid]) mid c1 (ask seen mid) f1
      refine ⟨mid :: l, by rw [e]; simp, by simpa using h1, ?_, (uIcc_sub hm).1 h3, ?_⟩
      · intro c hc
        rcases List.mem_cons.1 hc with rfl | hc
        · exact hm
        · exact (uIcc_sub hm).1 (h2 c hc)
      · rcases h4 with h | h | h
        · rw [h]; exact .inr (.inr List.mem_cons_self)
        · exact .inr (.inl h)
        · exact .inr (.inr (List.mem_cons_of_mem _ h))
    · obtain ⟨l, e, h1, h2, h3, h4⟩ := ih (seen ++ [mid]) c0 mid f0 (ask seen mid)
      refine ⟨mid :: l, by rw [e]; simp, by simpa using h1, ?_, (uIcc_sub hm).2 h3, ?_⟩
      · intro c hc
        rcases List.mem_cons.1 hc with rfl | hc
        · exact hm
        · exact (uIcc_sub hm).2 (h2 c hc)
      · rcases h4 with h | h | h
        · exact .inl h
        · rw [h]; exact .inr (.inr List.mem_cons_self)
        · exact .inr (.inr (List.mem_cons_of_mem _ h))
    · exact ⟨[mid], rfl, by simp, by simpa using hm, hm, by simp⟩
    · exact ⟨[mid], rfl, by simp, by simpa using hm, by simp, by simp⟩
    · exact ⟨[mid], rfl, by simp, by simpa using hm, by simp, by simp⟩

/-- C87 (bisection).  Whatever the field answers, and also if it answers differently each time, bisection evaluates it at most `n` times (`n` the
effective step count), at points of the segment, and returns an end of the segment or one of these points. -/
theorem C87_bisection (ask : List K → K → K) (steps : Int) (c0 c1 f0 f1 : K) :
    ∃ c l, bisectLoopH ask (stepCount steps) [] c0 c1 f0 f1 = (c, l) ∧ (l.length : Int) ≤ max 1 steps ∧ (∀ a ∈ l, a ∈ uIcc c0 c1) ∧
      c ∈ uIcc c0 c1 ∧ (c = c0 ∨ c = c1 ∨ c ∈ l) := by
  obtain ⟨l, e, h1, h2, h3, h4⟩ := bisectLoopH_spec ask (stepCount steps) [] c0 c1 f0 f1
  refine ⟨_, l, Prod.ext rfl (by rw [e]; rfl), ?_, h2, h3, h4⟩
  unfold stepCount at h1
  omega

theorem rfLoopH_spec (ask : List K → K → K) (n : Nat) (seen : List K) (side : RFSide) (m0 c0 c1 f0 f1 : K) (hc : c0 ≠ c1) (h : f0 * f1 < 0) :
    ∃ c l, rfLoopH ask n seen side m0 c0 c1 f0 f1 = some (c, seen ++ l) ∧ l.length ≤ n ∧ (∀ a ∈ l, StrictBetween c0 c1 a) ∧ l.Nodup ∧
      c = l.getLastD m0 ∧ (0 < n → l ≠ []) := by
  induction n generalizing seen side m0 c0 c1 f0 f1 with
  | zero => exact ⟨m0, [], by simp [rfLoopH], by simp, by simp, by simp, rfl, by simp⟩
  | succ n ih =>
    have hm := rf_mid_between hc h
    simp only [rfLoopH, if_neg (rf_ne h)]
    set mid := (c0 * f1 - c1 * f0) / (f1 - f0) with hmid
    set v := ask seen mid with hv
    by_cases h1 : v * f0 > 0
    · rw [if_pos h1]
      have hneg : ∀ m : K, 0 < m → v * (f1 * m) < 0 := by
        intro m hm0
        have a1 : v * f1 < 0 := by
          rcases mul_pos_iff.1 h1 with ⟨x, y⟩ | ⟨x, y⟩ <;> rcases mul_neg_iff.1 h with ⟨u, w⟩ | ⟨u, w⟩
          · exact mul_neg_of_pos_of_neg x w
          · linarith
          · linarith
          · exact mul_neg_of_neg_of_pos x w
        have : v * (f1 * m) = v * f1 * m := by ring
        rw [this]; exact mul_neg_of_neg_of_pos a1 hm0
      obtain ⟨c, l, e, k1, k2, k3, k4, k5⟩ := ih (seen ++ [mid]) .lo mid mid c1 v
        (if side = .lo then f1 * (if 1 - v / f0 ≤ 0 then 1 / 2 else 1 - v / f0) else f1) hm.ne.2 (by
          split_ifs with hs hq
          · exact hneg _ (by norm_num)
          · exact hneg _ (not_le.1 hq)
          · simpa using hneg 1 one_pos)
      rw [e]
      refine ⟨c, mid :: l, by simp, by simpa using k1, ?_, ?_, ?_, by simp⟩
      · intro a ha
        rcases List.mem_cons.1 ha with rfl | ha
        · exact hm
        · exact hm.trans_left (k2 a ha)
      · rw [List.nodup_cons]; exact ⟨fun hx => (k2 _ hx).ne.1 rfl, k3⟩
      · rw [k4]; exact last_cons _ _ _
    · rw [if_neg h1]
      by_cases h2 : v * f1 > 0
      · rw [if_pos h2]
        have hneg : ∀ m : K, 0 < m → f0 * m * v < 0 := by
          intro m hm0
          have a1 : f0 * v < 0 := by
            rcases mul_pos_iff.1 h2 with ⟨x, y⟩ | ⟨x, y⟩ <;> rcases mul_neg_iff.1 h with ⟨u, w⟩ | ⟨u, w⟩
            · linarith
            · exact mul_neg_of_neg_of_pos u x
            · exact mul_neg_of_pos_of_neg u x
            · linarith
          have : f0 * m * v = f0 * v * m := by ring
          rw [this]; exact mul_neg_of_neg_of_pos a1 hm0
        obtain ⟨c, l, e, k1, k2, k3, k4, k5⟩ := ih (seen ++ [mid]) .hi mid c0 mid
          (if side = .hi then f0 * (if 1 - v / f1 ≤ 0 then 1 / 2 else 1 - v / f1) else f0) v hm.ne.1.symm (by
            split_ifs with hs hq
            · exact hneg _ (by norm_num)
            · exact hneg _ (not_le.1 hq)
            · simpa using hneg 1 one_pos)
        rw [e]
        refine ⟨c, mid :: l, by simp, by simpa using k1, ?_, ?_, ?_, by simp⟩
        · intro a ha
          rcases List.mem_cons.1 ha with rfl | ha
          · exact hm
          · exact hm.trans_right (k2 a ha)
        · rw [List.nodup_cons]; exact ⟨fun hx => (k2 _ hx).ne.2 rfl, k3⟩
        · rw [k4]; exact last_cons _ _ _
      · rw [if_neg h2]
        exact ⟨mid, [mid], rfl, by simp, by simpa using hm, by simp, rfl, by simp⟩

/-- C87 (regula falsi).  If the values at the ends have opposite signs, regula falsi - whatever the field answers in between, also if it answers
differently each time - never divides by zero, evaluates the field at least once and at most `n` times, each time at another point strictly inside
the segment, and returns the last of these points. -/
theorem C87_regula_falsi (ask : List K → K → K) (steps : Int) (c0 c1 f0 f1 : K) (hc : c0 ≠ c1) (h : f0 * f1 < 0) :
    ∃ c l, rfLoopH ask (stepCount steps) [] .none c0 c0 c1 f0 f1 = some (c, l) ∧ l.getLast? = some c ∧ (l.length : Int) ≤ max 1 steps ∧
      (∀ a ∈ l, StrictBetween c0 c1 a) ∧ l.Nodup := by
  obtain ⟨c, l, e, h1, h2, h3, h4, h5⟩ := rfLoopH_spec ask (stepCount steps) [] .none c0 c0 c1 f0 f1 hc h
  have hpos : 0 < stepCount steps := by unfold stepCount; omega
  have hne := h5 hpos
  refine ⟨c, l, e, ?_, ?_, h2, h3⟩
  · rw [h4, List.getLastD_eq_getLast?, List.getLast?_eq_some_getLast hne]; rfl
  · unfold stepCount at h1; omega

theorem bisectLoopH_ofField (f : ScalarField K) (C : Axis) (p : Vec3 K) (n : Nat) (seen : List K) (c0 c1 f0 f1 : K) :
    (bisectLoopH (fun _ c => f.value (p.set C c)) n seen c0 c1 f0 f1).1 = bisectLoop f C p n c0 c1 f0 f1 := by
  induction n generalizing seen c0 c1 f0 f1 with
  | zero => rfl
  | succ n ih =>
    simp only [bisectLoopH, bisectLoop, bisectLoop_p]
    split_ifs <;> first | exact ih _ _ _ _ _ | rfl

theorem rfLoopH_ofField (f : ScalarField K) (C : Axis) (p : Vec3 K) (n : Nat) (seen : List K) (side : RFSide) (m0 c0 c1 f0 f1 : K) :
    rfLoopH (fun _ c => f.value (p.set C c)) n seen side m0 c0 c1 f0 f1 =
      (rfLoop f C p n side c0 c1 f0 f1).map fun l => (l.getLastD m0, seen ++ l) := by
  induction n generalizing seen side m0 c0 c1 f0 f1 with
  | zero => simp [rfLoopH, rfLoop]
  | succ n ih =>
    simp only [rfLoopH, rfLoop, rfLoop_p]
    by_cases h0 : f1 - f0 = 0
    · rw [if_pos h0, if_pos h0]; rfl
    · rw [if_neg h0, if_neg h0]
      split_ifs <;> first | rfl | (rw [ih, Option.map_map]; congr 1; funext l; exact Prod.ext (last_cons _ m0 l) (by simp))

/-- C87 (ordinary fields).  For a field that is a function these are the finders of the other theorems. -/
theorem C87_ofField (f : ScalarField K) (C : Axis) (steps : Int) (x0 y0 z0 c1 f0 f1 : K) :
    let p : Vec3 K := ⟨x0, y0, z0⟩
    (bisectLoopH (fun _ c => f.value (p.set C c)) (stepCount steps) [] (p.get C) c1 f0 f1).1 = bisectFind steps C x0 y0 z0 c1 f0 f1 f ∧
    (rfLoopH (fun _ c => f.value (p.set C c)) (stepCount steps) [] .none (p.get C) (p.get C) c1 f0 f1).map Prod.fst =
      rfFind steps C x0 y0 z0 c1 f0 f1 f := by
  refine ⟨bisectLoopH_ofField _ _ _ _ _ _ _ _ _, ?_⟩
  rw [rfLoopH_ofField, Option.map_map]
  rfl

/-- Non-vacuity: a field that answers `1` and `-1` in turn. -/
example : bisectLoopH (fun seen (_ : ℚ) => if seen.length % 2 = 0 then 1 else -1) (stepCount 3) [] 0 8 (-1) 1 = (2, [4, 2, 3]) ∧
    rfLoopH (fun seen (_ : ℚ) => if seen.length % 2 = 0 then 1 else -1) (stepCount 3) [] .none 0 0 8 (-1) 1 = some (3, [4, 2, 3]) := by
  decide +kernel

end Isomesh
