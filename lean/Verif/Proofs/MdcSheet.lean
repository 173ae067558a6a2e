import Verif.Proofs.MdcContour2
import Verif.Spec.MdcOctree

/-! The sets of `kMdcEdgeSetIndex` are the sheets of the surface inside a cell. -/

namespace Isomesh
open Spec Relation

set_option linter.unusedSectionVars false
variable {K : Type} [Add K] [_root_.Sub K] [Mul K] [Div K] [Neg K] [Zero K] [One K] [OfNat K 2] [OfScientific K] [NatCast K] [IntCast K]
  [Fabs K] [Elem K] [LinearOrder K] [RoundedLaws K]

/-- Edges of the six faces of a cell. -/
def faceTab : List (List Nat) := [[4, 5, 8, 10], [6, 7, 9, 11], [0, 1, 8, 9], [2, 3, 10, 11], [0, 2, 4, 6], [1, 3, 5, 7]]

/-- Number of a face. -/
def faceNo : Axis → Int → Nat
  | .X, s => if s = 0 then 0 else 1
  | .Y, s => if s = 0 then 2 else 3
  | .Z, s => if s = 0 then 4 else 5

theorem faceTab_iff (A : Axis) (s : Int) (hs : s = 0 ∨ s = 1) (k : Fin 12) :
    (k : Nat) ∈ faceTab.getD (faceNo A s) [] ↔ cellEdgeAxis k ≠ A ∧ (octOff (cellEdgeEnd k 0)).get A = s := by
  rcases hs with rfl | rfl <;> cases A <;> revert k <;> decide +kernel

/-- One step along a face, on patterns. -/
def stepB (m i j : Nat) : Bool :=
  Spec.crosses m i && Spec.crosses m j &&
    (solidNo m i == solidNo m j || faceTab.any fun f => f.contains i && f.contains j && f.all fun k => !Spec.crosses m k || k == i || k == j)

theorem stepB_setB : ((List.range 256).all fun m => (List.range 12).all fun i => (List.range 12).all fun j =>
    !stepB m i j || (mdcSet m i == mdcSet m j)) = true := by decide +kernel

theorem stepB_set {m i j : Nat} (hm : m < 256) (hi : i < 12) (hj : j < 12) (h : stepB m i j = true) : mdcSet m i = mdcSet m j := by
  have := stepB_setB
  simp only [List.all_eq_true, List.mem_range, Bool.or_eq_true, Bool.not_eq_true', beq_iff_eq] at this
  rcases this m hm i hi j hj with h' | h'
  · rw [h] at h'; cases h'
  · exact h'

theorem set_stepB : ((List.range 256).all fun m => decide (m ∈ Spec.joinedPatterns) ||
    (List.range 12).all fun e => !Spec.crosses m e ||
      let S := reachMask (fun a => maskOf (stepB m a) 12) 12 4 (1 <<< e)
      (List.range 12).all fun e' => !decide (mdcSet m e = mdcSet m e') || S.testBit e') = true := by decide +kernel

theorem set_step {m i j : Nat} (hm : m < 256) (hn : m ∉ Spec.joinedPatterns) (hi : i < 12) (hj : j < 12) (hc : Spec.crosses m i = true)
    (h : mdcSet m i = mdcSet m j) : ReflTransGen (fun a b => b < 12 ∧ stepB m a b = true) i j := by
  have h3 := set_stepB
  simp only [List.all_eq_true, List.mem_range, Bool.or_eq_true, Bool.not_eq_true', decide_eq_true_eq,
      decide_eq_false_iff_not] at h3
  have h4 : (reachMask (fun a => maskOf (stepB m a) 12) 12 4 (1 <<< i)).testBit j = true := by
    rcases h3 m hm with h3 | h3
    · exact absurd h3 hn
    · rcases h3 i hi with h3 | h3
      · rw [hc] at h3; cases h3
      · rcases h3 j hj with h3 | h3
        · exact absurd h h3
        · exact h3
  refine reachMask_sound (R := fun a b => b < 12 ∧ stepB m a b = true) ?_ 12 4 _ ?_ j h4
  · intro a b hab
    rw [testBit_maskOf, Bool.and_eq_true] at hab
    exact ⟨by simpa using hab.1, hab.2⟩
  · intro d hd
    rw [shiftLeft_testBit hd]

theorem joined_set : ∀ m ∈ Spec.joinedPatterns, ∀ i < 12, ∀ j < 12, Spec.crosses m i = true → Spec.crosses m j = true → mdcSet m i = mdcSet m j := by
  decide +kernel

theorem joined_holes : ∀ m < 256, (m ∈ Spec.joinedPatterns ↔ ∃ i : Fin 8, ∀ j : Fin 8, Spec.solid m j = false ↔ j = i ∨ (i : Nat) + j = 7) := by
  decide +kernel

variable {g : Grid K} {P : IVec3} {corners : Fin 8 → Material}

theorem twoHoles_iff (hc : ∀ i, g.at (octCorner P 1 i) = some (corners i)) : TwoHoles g P ↔ mdcMask corners ∈ Spec.joinedPatterns := by
  rw [joined_holes _ (mdcMask_lt corners)]
  unfold TwoHoles
  simp only [mdcMask_solid, solid_of (hc _)]

/-- The lattice edge with the given number in the cell. -/
def cellEdge (P : IVec3) (i : Fin 12) : LEdge := ⟨cellEdgeAxis i, mdcPos P i⟩

theorem cellEdge_inj {i j : Fin 12} (h : cellEdge P i = cellEdge P j) : i = j := by
  unfold cellEdge at h
  injection h with h1 h2
  exact mdcPos_inj h1 h2

theorem crossingOf_iff (hin : CellIn g.maxCoord P) (hc : ∀ i, g.at (octCorner P 1 i) = some (corners i)) (e : LEdge) :
    CrossingOf g P e ↔ ∃ i, e = cellEdge P i ∧ Spec.crosses (mdcMask corners) i = true := by
  constructor
  · rintro ⟨h1, h2⟩
    obtain ⟨i, a1, a2⟩ := mdc_edge_iff.1 h2
    refine ⟨i, by obtain ⟨D, p⟩ := e; simp only at a1 a2; subst a1; subst a2; rfl, ?_⟩
    rw [← (((C27_edge_sets.2 _ (mdcMask_lt corners)).2.1 i i.2).1), set_crossing hin hc]
    rw [a1, ← a2]; exact h1
  · rintro ⟨i, rfl, h⟩
    rw [← (((C27_edge_sets.2 _ (mdcMask_lt corners)).2.1 i i.2).1), set_crossing hin hc] at h
    exact ⟨h, mdc_edge_iff.2 ⟨i, rfl, rfl⟩⟩

theorem octCorner_inj (P : IVec3) {i j : Fin 8} (h : octCorner P 1 i = octCorner P 1 j) : i = j := by
  have : octOff i = octOff j := by
    simp only [octCorner, IVec3.mk.injEq] at h
    rcases hi : octOff i with ⟨a, b, c⟩
    rcases hj : octOff j with ⟨a', b', c'⟩
    rw [hi, hj] at h
    simp only [IVec3.mk.injEq] at *
    omega
  have key : ∀ i j, octOff i = octOff j → i = j := by decide
  exact key i j this

theorem solidEnd_cell (hc : ∀ i, g.at (octCorner P 1 i) = some (corners i)) (i : Fin 12) :
    solidEndOf g (cellEdge P i) = octCorner P 1 (solidEnd corners i) := by
  unfold solidEndOf solidEnd cellEdge
  dsimp only
  rw [show solidAt g (mdcPos P i) = decide (corners (cellEdgeEnd i 0) ≠ .Empty) from solid_of (hc _), mdcPos_end]
  simp only [decide_eq_true_eq]
  split_ifs <;> rfl

theorem solidNo_end (corners : Fin 8 → Material) (i : Fin 12) : solidNo (mdcMask corners) i = (solidEnd corners i : Nat) := by
  unfold solidNo solidEnd
  rw [← cellEdgeEnd_val i 0 (by decide), ← cellEdgeEnd_val i 1 (by decide), mdcMask_solid]
  simp only [decide_eq_true_eq]
  split_ifs <;> rfl

theorem onFace_cell (A : Axis) (s : Int) (hs : s = 0 ∨ s = 1) (i : Fin 12) :
    OnFace P A s (cellEdge P i) ↔ (i : Nat) ∈ faceTab.getD (faceNo A s) [] := by
  rw [faceTab_iff A s hs]
  unfold OnFace cellEdge mdcPos
  dsimp only
  rw [octCorner_get]
  constructor <;> rintro ⟨a, b⟩ <;> exact ⟨a, by omega⟩

theorem faceNo_surj (f : List Nat) (hf : f ∈ faceTab) : ∃ A s, (s = 0 ∨ s = 1) ∧ f = faceTab.getD (faceNo A s) [] := by
  simp only [faceTab, List.mem_cons, List.not_mem_nil, or_false] at hf
  rcases hf with rfl | rfl | rfl | rfl | rfl | rfl
  · exact ⟨.X, 0, Or.inl rfl, rfl⟩
  · exact ⟨.X, 1, Or.inr rfl, rfl⟩
  · exact ⟨.Y, 0, Or.inl rfl, rfl⟩
  · exact ⟨.Y, 1, Or.inr rfl, rfl⟩
  · exact ⟨.Z, 0, Or.inl rfl, rfl⟩
  · exact ⟨.Z, 1, Or.inr rfl, rfl⟩

theorem faceTab_lt : ∀ f ∈ faceTab, ∀ k ∈ f, k < 12 := by decide

theorem faceTab_mem (A : Axis) (s : Int) (hs : s = 0 ∨ s = 1) : faceTab.getD (faceNo A s) [] ∈ faceTab := by
  rcases hs with rfl | rfl <;> cases A <;> decide

theorem sheetStep_iff (hin : CellIn g.maxCoord P) (hc : ∀ i, g.at (octCorner P 1 i) = some (corners i)) (i j : Fin 12) :
    SheetStep g P (cellEdge P i) (cellEdge P j) ↔ stepB (mdcMask corners) i j = true := by
  have hcr : ∀ i : Fin 12, CrossingOf g P (cellEdge P i) ↔ Spec.crosses (mdcMask corners) i = true := by
    intro i
    rw [crossingOf_iff hin hc]
    constructor
    · rintro ⟨k, e, h⟩
      cases cellEdge_inj e
      exact h
    · exact fun h => ⟨i, rfl, h⟩
  unfold SheetStep stepB
  rw [Bool.and_eq_true, Bool.and_eq_true, ← hcr, ← hcr, and_assoc]
  refine and_congr_right fun hi => and_congr_right fun hj => ?_
  rw [Bool.or_eq_true]
  apply or_congr
  · rw [solidEnd_cell hc, solidEnd_cell hc, beq_iff_eq, solidNo_end, solidNo_end]
    constructor
    · intro h; rw [octCorner_inj P h]
    · intro h; rw [Fin.ext h]
  · rw [List.any_eq_true]
    simp only [Bool.and_eq_true, List.contains_iff_mem, List.all_eq_true, Bool.or_eq_true, Bool.not_eq_true', beq_iff_eq]
    constructor
    · rintro ⟨A, s, hs, h1, h2, h3⟩
      refine ⟨_, faceTab_mem A s hs, ⟨(onFace_cell A s hs i).1 h1, (onFace_cell A s hs j).1 h2⟩, fun k hk => ?_⟩
      have hk12 := faceTab_lt _ (faceTab_mem A s hs) k hk
      by_cases hck : Spec.crosses (mdcMask corners) k = true
      · rcases h3 (cellEdge P ⟨k, hk12⟩) ((hcr _).2 hck) ((onFace_cell A s hs ⟨k, hk12⟩).2 hk) with h | h
        · exact Or.inl (Or.inr (by rw [← cellEdge_inj h]))
        · exact Or.inr (by rw [← cellEdge_inj h])
      · exact Or.inl (Or.inl (by simpa using hck))
    · rintro ⟨f, hf, ⟨h1, h2⟩, h3⟩
      obtain ⟨A, s, hs, rfl⟩ := faceNo_surj f hf
      refine ⟨A, s, hs, (onFace_cell A s hs i).2 h1, (onFace_cell A s hs j).2 h2, fun e he hface => ?_⟩
      obtain ⟨k, rfl, hk⟩ := (crossingOf_iff hin hc e).1 he
      rcases h3 k ((onFace_cell A s hs k).1 hface) with (h | h) | h
      · rw [hk] at h; cases h
      · left; rw [Fin.ext h]
      · right; rw [Fin.ext h]

/-- The sets of the table are the sheets. -/
theorem sheet_iff (hin : CellIn g.maxCoord P) (hc : ∀ i, g.at (octCorner P 1 i) = some (corners i)) {i j : Fin 12}
    (hi : CrossingOf g P (cellEdge P i)) (hj : CrossingOf g P (cellEdge P j)) :
    SameSheet g P (cellEdge P i) (cellEdge P j) ↔ mdcSet (mdcMask corners) i = mdcSet (mdcMask corners) j := by
  have hcr : ∀ i : Fin 12, CrossingOf g P (cellEdge P i) → Spec.crosses (mdcMask corners) i = true := by
    intro i h
    obtain ⟨k, e, h⟩ := (crossingOf_iff hin hc _).1 h
    cases cellEdge_inj e
    exact h
  unfold SameSheet
  rw [twoHoles_iff hc]
  constructor
  · rintro (h | h)
    · exact joined_set _ h i i.2 j j.2 (hcr i hi) (hcr j hj)
    · have key : ∀ e e', EqvGen (SheetStep g P) e e' → e = e' ∨ (∃ i j : Fin 12, e = cellEdge P i ∧ e' = cellEdge P j ∧
          mdcSet (mdcMask corners) i = mdcSet (mdcMask corners) j) := by
        intro e e' h
        induction h with
        | rel x y h =>
          obtain ⟨i, rfl, -⟩ := (crossingOf_iff hin hc _).1 h.1
          obtain ⟨j, rfl, -⟩ := (crossingOf_iff hin hc _).1 h.2.1
          exact Or.inr ⟨i, j, rfl, rfl, stepB_set (mdcMask_lt _) i.2 j.2 ((sheetStep_iff hin hc i j).1 h)⟩
        | refl x => exact Or.inl rfl
        | symm x y _ ih =>
          rcases ih with rfl | ⟨i, j, e1, e2, e3⟩
          · exact Or.inl rfl
          · exact Or.inr ⟨j, i, e2, e1, e3.symm⟩
        | trans x y z _ _ ih1 ih2 =>
          rcases ih1 with rfl | ⟨i, j, e1, e2, e3⟩
          · exact ih2
          · rcases ih2 with rfl | ⟨i', j', e1', e2', e3'⟩
            · exact Or.inr ⟨i, j, e1, e2, e3⟩
            · cases cellEdge_inj (e2.symm.trans e1')
              exact Or.inr ⟨i, j', e1, e2', e3.trans e3'⟩
      rcases key _ _ h with h | ⟨i', j', e1, e2, e3⟩
      · cases cellEdge_inj h; rfl
      · cases cellEdge_inj e1; cases cellEdge_inj e2; exact e3
  · intro h
    by_cases hjp : mdcMask corners ∈ Spec.joinedPatterns
    · exact Or.inl hjp
    · right
      have := set_step (mdcMask_lt _) hjp i.2 j.2 (hcr i hi) h
      have key : ∀ b : Nat, ReflTransGen (fun a b => b < 12 ∧ stepB (mdcMask corners) a b = true) i b → ∃ hb : b < 12,
          EqvGen (SheetStep g P) (cellEdge P i) (cellEdge P ⟨b, hb⟩) := by
        intro b hb
        induction hb with
        | refl => exact ⟨i.2, EqvGen.refl _⟩
        | tail _ h2 ih =>
          obtain ⟨h3, h4⟩ := ih
          exact ⟨h2.1, h4.trans _ _ _ (EqvGen.rel _ _ ((sheetStep_iff hin hc ⟨_, h3⟩ ⟨_, h2.1⟩).2 h2.2))⟩
      exact (key j this).2

end Isomesh
