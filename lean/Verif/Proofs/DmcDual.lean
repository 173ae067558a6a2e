import Verif.Proofs.DmcContour

/-! Geometry of the dual grid of an octree. -/

namespace Isomesh
open Spec

set_option linter.unusedSectionVars false
variable {K : Type} [Add K] [_root_.Sub K] [Mul K] [Div K] [Neg K] [Zero K] [One K] [OfNat K 2] [OfScientific K] [NatCast K] [IntCast K]
  [Fabs K] [Elem K] [LinearOrder K] [RoundedLaws K]

noncomputable section
open scoped Classical

theorem cube_common {A B : Cube} (h : ∀ a : Axis, ∃ z : Int, (A.lo.get a ≤ z ∧ z < A.lo.get a + A.side) ∧
    (B.lo.get a ≤ z ∧ z < B.lo.get a + B.side)) : ∃ u, A.Has u ∧ B.Has u := by
  obtain ⟨x, hx⟩ := h .X
  obtain ⟨y, hy⟩ := h .Y
  obtain ⟨z, hz⟩ := h .Z
  exact ⟨⟨x, y, z⟩, ⟨hx.1, hy.1, hz.1⟩, ⟨hx.2, hy.2, hz.2⟩⟩

/-- `B` has a unit cell that follows one of `A` in the direction `D`. -/
def UpNext (D : Axis) (A B : Cube) : Prop :=
  ∃ u v : IVec3, A.Has u ∧ B.Has v ∧ ∀ a, v.get a = u.get a + if a = D then 1 else 0

theorem has_get {c : Cube} {u : IVec3} (h : c.Has u) (a : Axis) : c.lo.get a ≤ u.get a ∧ u.get a < c.lo.get a + c.side := by
  cases a
  · exact h.1
  · exact h.2.1
  · exact h.2.2

theorem upNext_antisymm {A B : Cube} {D D' : Axis} (h : UpNext D A B) (h' : UpNext D' B A) : ∃ u, A.Has u ∧ B.Has u := by
  obtain ⟨u, v, hA, hB, hv⟩ := h
  obtain ⟨u', v', hB', hA', hv'⟩ := h'
  apply cube_common
  intro a
  have a1 := has_get hA a
  have b1 := has_get hB a
  have a2 := has_get hA' a
  have b2 := has_get hB' a
  have e1 := hv a
  have e2 := hv' a
  by_cases h1 : a = D
  · by_cases h2 : a = D'
    · rw [if_pos h1] at e1
      rw [if_pos h2] at e2
      by_cases h3 : u.get a ≤ u'.get a
      · exact ⟨u.get a + 1, by omega, by omega⟩
      · exact ⟨u.get a, by omega, by omega⟩
    · rw [if_neg h2] at e2
      exact ⟨u'.get a, by omega, by omega⟩
  · rw [if_neg h1] at e1
    exact ⟨u.get a, by omega, by omega⟩

variable {t : DmcNode K} {c : Cube}

theorem dualEdge_upNext {A B : DmcCell K} (h : DualEdge t c A B) :
    A ∈ (locate t c).leaves ∧ B ∈ (locate t c).leaves ∧ ∃ D, UpNext D A.1 B.1 := by
  obtain ⟨p, q, D, i, j, hm, hn, rfl, rfl⟩ := h
  refine ⟨hm.leaf i, hm.leaf j, D, _, _, hm.contains i, hm.contains j, ?_⟩
  intro a
  rw [vertCorner_get, vertCorner_get, hn a]
  ring

theorem dualEdge_keys (hh : t.height ≤ c.k) (ha : DistinctAddresses t c) : KeysOk fun x => DualEdge t c x.1 x.2 := by
  rintro ⟨A, B⟩ ⟨A', B'⟩ h h' hk
  obtain ⟨hA, hB, D, hu⟩ := dualEdge_upNext h
  obtain ⟨hA', hB', D', hu'⟩ := dualEdge_upNext h'
  simp only at hA hB hA' hB' hu hu'
  have hk : (min A.2.addr B.2.addr, max A.2.addr B.2.addr) = (min A'.2.addr B'.2.addr, max A'.2.addr B'.2.addr) := hk
  simp only [Prod.mk.injEq] at hk
  have hcase : (A.2.addr = A'.2.addr ∧ B.2.addr = B'.2.addr) ∨ (A.2.addr = B'.2.addr ∧ B.2.addr = A'.2.addr) := by omega
  rcases hcase with ⟨h1, h2⟩ | ⟨h1, h2⟩
  · rw [ha A hA A' hA' h1, ha B hB B' hB' h2]
  · have e1 := ha A hA B' hB' h1
    have e2 := ha B hB A' hA' h2
    subst e1 e2
    obtain ⟨u, hu1, hu2⟩ := upNext_antisymm hu hu'
    rw [leaf_unique (placed_locate t c hh) A hA B hB u hu1 hu2]

theorem nextOctant_iff (D : Axis) (i j : Fin 8) : NextOctant D i j ↔
    (octOff j).x = (octOff i).x + (if Axis.X = D then 1 else 0) ∧ (octOff j).y = (octOff i).y + (if Axis.Y = D then 1 else 0) ∧
      (octOff j).z = (octOff i).z + (if Axis.Z = D then 1 else 0) := by
  constructor
  · intro h
    exact ⟨h .X, h .Y, h .Z⟩
  · rintro ⟨h1, h2, h3⟩ a
    cases a
    · exact h1
    · exact h2
    · exact h3

/-- Axis of a cell edge. -/
def slotDir (e : Nat) : Axis := [Axis.X, .Y, .Z].getD (kCellEdgeDirection.getD e 9) .X

theorem slot_next : ∀ e < 12, NextOctant (slotDir e) (Fin.ofNat 8 (edgeCorner e 0)) (Fin.ofNat 8 (edgeCorner e 1)) := by
  simp only [nextOctant_iff]
  decide +kernel

theorem next_slot (D : Axis) : ∀ i j : Fin 8, NextOctant D i j →
    ∃ e < 12, slotDir e = D ∧ Fin.ofNat 8 (edgeCorner e 0) = i ∧ Fin.ofNat 8 (edgeCorner e 1) = j := by
  simp only [nextOctant_iff]
  cases D <;> decide +kernel

theorem slot_dualEdge {p : IVec3} {q : Fin 8 → DmcCell K} (h : MinimalVertex t c p q) {e : Nat} (he : e < 12) :
    DualEdge t c (slotPair q e).1 (slotPair q e).2 :=
  ⟨p, q, _, _, _, h, slot_next e he, rfl, rfl⟩

theorem dualEdge_slot {A B : DmcCell K} (h : DualEdge t c A B) :
    ∃ p q, MinimalVertex t c p q ∧ ∃ e < 12, (A, B) = slotPair q e := by
  obtain ⟨p, q, D, i, j, hm, hn, rfl, rfl⟩ := h
  obtain ⟨e, he, -, hi, hj⟩ := next_slot D i j hn
  refine ⟨p, q, hm, e, he, ?_⟩
  unfold slotPair slotCell
  rw [hi, hj]

end
end Isomesh
