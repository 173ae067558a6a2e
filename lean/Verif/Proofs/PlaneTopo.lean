import Verif.Spec.DcOctree
import Mathlib.Tactic.Linarith
import Mathlib.Tactic.Positivity
import Mathlib.Tactic.FieldSimp

/-! Half-spaces pass the topology test of the octree. -/

namespace Isomesh

open Spec

/-- `c` is the neighbour of the corner `a` on the way to `t` along one axis. -/
def closer (t a c : Fin 8) : Bool := adjacentCorners a c && ((a.val ^^^ t.val) &&& (a.val ^^^ c.val) != 0)

theorem closer_path : ∀ t a : Fin 8, ∃ c1 c2 : Fin 8, (a = c1 ∨ closer t a c1 = true) ∧ (c1 = c2 ∨ closer t c1 c2 = true) ∧
    (c2 = t ∨ closer t c2 t = true) := by decide

theorem away_path : ∀ t : Fin 8, ∃ t' : Fin 8, ∀ a : Fin 8, ∃ c1 c2 : Fin 8, (a = c1 ∨ closer t c1 a = true) ∧
    (c1 = c2 ∨ closer t c2 c1 = true) ∧ (c2 = t' ∨ closer t t' c2 = true) := by decide

theorem closer_adj : ∀ t a c : Fin 8, closer t a c = true → adjacentCorners a c = true ∧ adjacentCorners c a = true := by decide

theorem closer_off : ∀ t a c : Fin 8, closer t a c = true →
    ((octOff c).x - (octOff a).x = 0 ∨ (octOff c).x - (octOff a).x = 2 * (octOff t).x - 1) ∧
    ((octOff c).y - (octOff a).y = 0 ∨ (octOff c).y - (octOff a).y = 2 * (octOff t).y - 1) ∧
    ((octOff c).z - (octOff a).z = 0 ∨ (octOff c).z - (octOff a).z = 2 * (octOff t).z - 1) := by decide

theorem corner_exists (bx by_ bz : Bool) : ∃ t : Fin 8, (octOff t).x = (if bx then 1 else 0) ∧ (octOff t).y = (if by_ then 1 else 0) ∧
    (octOff t).z = (if bz then 1 else 0) := by
  revert bx by_ bz; decide

theorem adjacent_symm : ∀ x y : Fin 8, adjacentCorners x y = true → adjacentCorners y x = true := by decide

/-- Patterns that are monotone along each axis are manifold. -/
theorem unate_manifold {F : Fin 8 → Bool} (t : Fin 8) (h : ∀ a c, closer t a c = true → F a = true → F c = true) : ManifoldPattern F := by
  obtain ⟨t', ht'⟩ := away_path t
  have key : ∀ v, ∃ t0, ∀ a, F a = v →
      Relation.ReflTransGen (fun c d : Fin 8 => adjacentCorners c d = true ∧ F c = v ∧ F d = v) a t0 := by
    intro v
    cases v with
    | true =>
      refine ⟨t, fun a ha => ?_⟩
      obtain ⟨c1, c2, h1, h2, h3⟩ := closer_path t a
      have stp : ∀ x y, F x = true → (x = y ∨ closer t x y = true) → F y = true ∧
          Relation.ReflTransGen (fun c d : Fin 8 => adjacentCorners c d = true ∧ F c = true ∧ F d = true) x y := by
        rintro x y hx (rfl | hc)
        · exact ⟨hx, .refl⟩
        · exact ⟨h x y hc hx, .single ⟨(closer_adj t x y hc).1, hx, h x y hc hx⟩⟩
      have s1 := stp a c1 ha h1
      have s2 := stp c1 c2 s1.1 h2
      have s3 := stp c2 t s2.1 h3
      exact (s1.2.trans s2.2).trans s3.2
    | false =>
      refine ⟨t', fun a ha => ?_⟩
      obtain ⟨c1, c2, h1, h2, h3⟩ := ht' a
      have stp : ∀ x y, F x = false → (x = y ∨ closer t y x = true) → F y = false ∧
          Relation.ReflTransGen (fun c d : Fin 8 => adjacentCorners c d = true ∧ F c = false ∧ F d = false) x y := by
        rintro x y hx (rfl | hc)
        · exact ⟨hx, .refl⟩
        · have hy : F y = false := by
            by_contra hcon
            have := h y x hc (by simpa using hcon)
            rw [hx] at this; cases this
          exact ⟨hy, .single ⟨(closer_adj t y x hc).2, hx, hy⟩⟩
      have s1 := stp a c1 ha h1
      have s2 := stp c1 c2 s1.1 h2
      have s3 := stp c2 t' s2.1 h3
      exact (s1.2.trans s2.2).trans s3.2
  intro a b hab
  obtain ⟨t0, h0⟩ := key (F a)
  have p1 := h0 a rfl
  have p2 := h0 b hab.symm
  refine p1.trans ?_
  have hsym : Std.Symm (fun c d : Fin 8 => adjacentCorners c d = true ∧ F c = F a ∧ F d = F a) := by
    refine ⟨?_⟩
    rintro x y ⟨e1, e2, e3⟩
    exact ⟨adjacent_symm x y e1, e3, e2⟩
  exact Relation.ReflTransGen.stdSymm.symm _ _ p2

/-- Changes one coordinate. -/
def putAt (p : IVec3) (D : Axis) (v : Int) : IVec3 :=
  match D with
  | .X => { p with x := v }
  | .Y => { p with y := v }
  | .Z => { p with z := v }

/-- An affine function of lattice points. -/
structure AffineOn (φ : IVec3 → ℝ) (A B C D : ℝ) : Prop where
  eq : ∀ p, φ p = A + B * p.x + C * p.y + D * p.z

theorem affine_manifold {φ : IVec3 → ℝ} {A B C D : ℝ} (h : AffineOn φ A B C D) (o : IVec3) {s : Int} (hs : 0 ≤ s) :
    ManifoldPattern fun i => decide (φ (octCorner o s i) ≤ 0) := by
  obtain ⟨t, tx, ty, tz⟩ := corner_exists (decide (B ≤ 0)) (decide (C ≤ 0)) (decide (D ≤ 0))
  apply unate_manifold t
  intro a c hc ha
  have ha : φ (octCorner o s a) ≤ 0 := by simpa using ha
  have : φ (octCorner o s c) ≤ φ (octCorner o s a) := by
    obtain ⟨k1, k2, k3⟩ := closer_off t a c hc
    have hs' : (0 : ℝ) ≤ s := by exact_mod_cast hs
    have one : ∀ (B : ℝ) (u v w : Int), w = (if decide (B ≤ 0) = true then 1 else 0) → (u - v = 0 ∨ u - v = 2 * w - 1) →
        B * (s * ((u : ℝ) - v)) ≤ 0 := by
      intro B u v w hw huv
      rcases huv with h0 | h0
      · have : (u : ℝ) - v = 0 := by exact_mod_cast h0
        rw [this]; simp
      · have e : (u : ℝ) - v = 2 * w - 1 := by exact_mod_cast h0
        rw [e, hw]
        by_cases hB : B ≤ 0
        · simp only [hB, decide_true, if_true]; norm_num
          exact mul_nonpos_of_nonpos_of_nonneg hB hs'
        · simp only [hB, decide_false]; norm_num
          exact mul_nonneg (le_of_lt (not_le.1 hB)) hs'
    have o1 := one B _ _ _ tx k1
    have o2 := one C _ _ _ ty k2
    have o3 := one D _ _ _ tz k3
    rw [h.eq, h.eq]
    simp only [octCorner]
    push_cast
    nlinarith
  simpa using this.trans ha

/-- The materials of a half-space of one material. -/
theorem affine_topo {φ : IVec3 → ℝ} {A B C D : ℝ} (h : AffineOn φ A B C D) {m : Material} (hm : m ≠ .Empty) {M : IVec3 → Material}
    (hM : ∀ p, HalfGrid p → M p = if φ p ≤ 0 then m else .Empty) : TopoSafe M := by
  have hcorner : ∀ i, HalfGrid (octCorner ⟨0, 0, 0⟩ 2 i) := by
    intro i a
    cases a <;> revert i <;> decide
  have hcorner' : ∀ i j, HalfGrid (octCorner (octOff i) 1 j) := by
    intro i j a
    cases a <;> revert i j <;> decide
  have hdec : ∀ p, HalfGrid p → decide (M p ≠ .Empty) = decide (φ p ≤ 0) := by
    intro p hp
    rw [hM p hp]
    by_cases h0 : φ p ≤ 0 <;> simp [h0, hm]
  -- of two points one is on the same side as their midpoint
  have mid : ∀ p q r, HalfGrid p → HalfGrid q → HalfGrid r → φ p = (φ q + φ r) / 2 → M p = M q ∨ M p = M r := by
    intro p q r hp hq hr e
    rw [hM p hp, hM q hq, hM r hr]
    by_cases h1 : φ p ≤ 0 <;> by_cases h2 : φ q ≤ 0 <;> by_cases h3 : φ r ≤ 0 <;> simp [h1, h2, h3] <;> exfalso <;> linarith
  refine ⟨?_, ?_, ?_, ?_, ?_⟩
  · have := affine_manifold h ⟨0, 0, 0⟩ (s := 2) (by norm_num)
    convert this using 2 with i
    exact hdec _ (hcorner i)
  · intro i
    have := affine_manifold h (octOff i) (s := 1) (by norm_num)
    convert this using 2 with j
    exact hdec _ (hcorner' i j)
  · intro X p hp h1
    have hset : ∀ v : Int, v = 0 ∨ v = 2 → HalfGrid (putAt p X v) ∧ (putAt p X v).get X ≠ 1 ∧ ∀ a, a ≠ X → (putAt p X v).get a = p.get a := by
      intro v hv
      refine ⟨fun a => ?_, ?_, ?_⟩
      · have := hp a
        cases X <;> cases a <;> simp only [putAt, IVec3.get] at this ⊢ <;> omega
      · cases X <;> simp only [putAt, IVec3.get] <;> omega
      · intro a ha
        cases X <;> cases a <;> first | rfl | exact absurd rfl ha
    have hq := hset 0 (Or.inl rfl)
    have hr := hset 2 (Or.inr rfl)
    rcases mid p _ _ hp hq.1 hr.1 (by
      simp only [h.eq]
      cases X <;> simp only [IVec3.get] at h1 <;> simp only [putAt, h1] <;> push_cast <;> ring) with e | e
    · exact ⟨_, hq.1, hq.2.1, hq.2.2, e⟩
    · exact ⟨_, hr.1, hr.2.1, hr.2.2, e⟩
  · intro X p hp h1
    have hset : ∀ v : Int, v = 0 ∨ v = 2 → HalfGrid (putAt ⟨v, v, v⟩ X (p.get X)) ∧
        (∀ a, a ≠ X → (putAt ⟨v, v, v⟩ X (p.get X)).get a ≠ 1) ∧ (putAt ⟨v, v, v⟩ X (p.get X)).get X = p.get X := by
      intro v hv
      refine ⟨fun a => ?_, ?_, ?_⟩
      · have := hp a
        cases X <;> cases a <;> simp only [putAt, IVec3.get] at this ⊢ <;> omega
      · intro a ha
        cases X <;> cases a <;> first | exact absurd rfl ha | (simp only [putAt, IVec3.get]; omega)
      · cases X <;> rfl
    have hq := hset 0 (Or.inl rfl)
    have hr := hset 2 (Or.inr rfl)
    rcases mid p _ _ hp hq.1 hr.1 (by
      simp only [h.eq]
      have hx := h1 .X
      have hy := h1 .Y
      have hz := h1 .Z
      cases X <;> simp [IVec3.get] at hx hy hz <;> simp only [putAt, IVec3.get, *] <;> push_cast <;> ring) with e | e
    · exact ⟨_, hq.1, hq.2.1, hq.2.2, e⟩
    · exact ⟨_, hr.1, hr.2.1, hr.2.2, e⟩
  · have hh : ∀ v : Int, v = 0 ∨ v = 1 ∨ v = 2 → HalfGrid ⟨v, v, v⟩ := by
      intro v hv a; cases a <;> exact hv
    have hq := hh 0 (by simp)
    have hr := hh 2 (by simp)
    rcases mid ⟨1, 1, 1⟩ _ _ (hh 1 (by simp)) hq hr (by simp only [h.eq]; push_cast; ring) with e | e
    · exact ⟨_, hq, by intro a; cases a <;> simp [IVec3.get], e⟩
    · exact ⟨_, hr, by intro a; cases a <;> simp [IVec3.get], e⟩

end Isomesh
