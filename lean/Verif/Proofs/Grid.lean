import Verif.Model.Grid
import Verif.Spec.Geometry
import Mathlib.Tactic.IntervalCases
import Mathlib.Data.Nat.Bitwise

/-! Helper lemmas about the grid indexing. -/

namespace Isomesh

theorem and_pred_eq_zero_iff (n : Nat) (hn : 0 < n) : n &&& (n - 1) = 0 ↔ ∃ k, n = 2 ^ k := by
  constructor
  · induction n using Nat.strong_induction_on with
    | _ n ih =>
      intro h
      rcases Nat.even_or_odd' n with ⟨m, hm | hm⟩
      · have hm0 : 0 < m := by omega
        have : m &&& (m - 1) = 0 := by
          apply Nat.eq_of_testBit_eq
          intro i
          have hi := congrArg (fun x => x.testBit (i + 1)) h
          simp only [Nat.testBit_and, Nat.zero_testBit] at hi ⊢
          rw [Nat.testBit_succ, Nat.testBit_succ] at hi
          have e1 : n / 2 = m := by omega
          have e2 : (n - 1) / 2 = m - 1 := by omega
          rw [e1, e2] at hi
          exact hi
        obtain ⟨k, hk⟩ := ih m (by omega) hm0 this
        exact ⟨k + 1, by rw [hm, hk, pow_succ]; ring⟩
      · by_cases hm0 : m = 0
        · exact ⟨0, by simp [hm, hm0]⟩
        · exfalso
          apply hm0
          apply Nat.eq_of_testBit_eq
          intro i
          have hi := congrArg (fun x => x.testBit (i + 1)) h
          simp only [Nat.testBit_and, Nat.zero_testBit] at hi
          rw [Nat.testBit_succ, Nat.testBit_succ] at hi
          have e1 : n / 2 = m := by omega
          have e2 : (n - 1) / 2 = m := by omega
          rw [e1, e2, Bool.and_self] at hi
          simpa using hi
  · rintro ⟨k, rfl⟩
    apply Nat.eq_of_testBit_eq
    intro i
    simp only [Nat.testBit_and, Nat.zero_testBit, Nat.testBit_two_pow, Nat.testBit_two_pow_sub_one]
    by_cases h : k = i <;> simp [h]

theorem u32_of_lt {n : Nat} (h : n < 4294967296) : u32 n = n := Nat.mod_eq_of_lt h

theorem toU32_of {i : Int} (h0 : 0 ≤ i) (h1 : i < 4294967296) : toU32 i = i.toNat := by
  unfold toU32; rw [Int.emod_eq_of_lt h0 h1]

theorem u32sub_of_le {a b : Nat} (h : b ≤ a) (ha : a < 4294967296) : u32sub a b = a - b := by
  unfold u32sub
  have hb : b % 4294967296 = b := Nat.mod_eq_of_lt (by omega)
  rw [hb]
  omega

theorem cube_lt {n : Nat} (h : n ≤ 1024) : (n + 1) * (n + 1) * (n + 1) < 4294967296 := by
  have h1 : (n + 1) * (n + 1) ≤ 1025 * 1025 := Nat.mul_le_mul (by omega) (by omega)
  have h2 : (n + 1) * (n + 1) * (n + 1) ≤ 1025 * 1025 * 1025 := Nat.mul_le_mul h1 (by omega)
  omega

theorem sq_lt {n : Nat} (h : n ≤ 1024) : (n + 1) * (n + 1) < 4294967296 := by
  have h1 : (n + 1) * (n + 1) ≤ 1025 * 1025 := Nat.mul_le_mul (by omega) (by omega)
  omega

theorem dataSizeOf_eq {n : Nat} (h : n ≤ 1024) : dataSizeOf n = (n + 1) * (n + 1) * (n + 1) := by
  unfold dataSizeOf
  rw [u32_of_lt (n := n + 1) (by omega), u32_of_lt (sq_lt h), u32_of_lt (cube_lt h)]

/-- Row-major index. -/
def lin (n a b c : Nat) : Nat := (a * n + b) * n + c

theorem lin_lt {n a b c : Nat} (ha : a < n) (hb : b < n) (hc : c < n) : lin n a b c < n * n * n := by
  unfold lin
  have h1 : a * n + b + 1 ≤ n * n := by
    have : (a + 1) * n ≤ n * n := Nat.mul_le_mul_right n ha
    have e : (a + 1) * n = a * n + n := by ring
    omega
  have h2 : (a * n + b + 1) * n ≤ n * n * n := Nat.mul_le_mul_right n h1
  have e2 : (a * n + b + 1) * n = (a * n + b) * n + n := by ring
  omega

theorem lin_mod {n a b c : Nat} (hc : c < n) : lin n a b c % n = c := by
  unfold lin; rw [Nat.mul_comm, Nat.mul_add_mod, Nat.mod_eq_of_lt hc]

theorem lin_div {n a b c : Nat} (hc : c < n) : lin n a b c / n = a * n + b := by
  unfold lin
  rw [Nat.mul_comm, Nat.mul_add_div (by omega), Nat.div_eq_of_lt hc, Nat.add_zero]

theorem lin_div_mod {n a b c : Nat} (hb : b < n) (hc : c < n) : lin n a b c / n % n = b := by
  rw [lin_div hc, Nat.mul_comm, Nat.mul_add_mod, Nat.mod_eq_of_lt hb]

theorem lin_div_div {n a b c : Nat} (hb : b < n) (hc : c < n) : lin n a b c / n / n = a := by
  rw [lin_div hc, Nat.mul_comm, Nat.mul_add_div (by omega), Nat.div_eq_of_lt hb, Nat.add_zero]

theorem lin_decomp (n i : Nat) : lin n (i / n / n) (i / n % n) (i % n) = i := by
  unfold lin
  have h1 := Nat.div_add_mod (i / n) n
  have h2 := Nat.div_add_mod i n
  rw [Nat.mul_comm (i / n / n) n, h1, Nat.mul_comm (i / n) n, h2]

section
variable {K : Type} {g : Grid K}

theorem Grid.isVertexInGrid_iff (p : IVec3) : g.isVertexInGrid p = true ↔ Spec.InCube g.half p := by
  unfold Grid.isVertexInGrid Spec.InCube
  rw [← abs_le, ← abs_le, ← abs_le]
  split_ifs <;> simp <;> omega

/-- Index of a vertex, as a natural number. -/
def Grid.vidx (g : Grid K) (p : IVec3) : Nat :=
  lin (g.size + 1) (p.y + g.half).toNat (p.x + g.half).toNat (p.z + g.half).toNat

theorem Grid.vidx_lt (hg : g.WF) {p : IVec3} (hp : Spec.InCube g.half p) :
    g.vidx p < (g.size + 1) * (g.size + 1) * (g.size + 1) := by
  obtain ⟨⟨_, _⟩, ⟨_, _⟩, _, _⟩ := hp
  have := hg.half_eq
  apply lin_lt <;> omega

theorem Grid.vidx_lt' (hg : g.WF) {p : IVec3} (hp : Spec.InCube g.half p) : g.vidx p < g.dataSize := by
  unfold Grid.dataSize; rw [dataSizeOf_eq hg.le]; exact vidx_lt hg hp

theorem Grid.pointToIndex_eq (hg : g.WF) {p : IVec3} (hp : Spec.InCube g.half p) :
    g.pointToIndex p = some (g.vidx p) := by
  have hlt := vidx_lt hg hp
  have hc := cube_lt hg.le
  have hv := (isVertexInGrid_iff (g := g) p).2 hp
  obtain ⟨⟨_, _⟩, ⟨_, _⟩, _, _⟩ := hp
  have h2 := hg.half_eq
  have h3 := hg.le
  unfold Grid.pointToIndex
  rw [if_pos hv]
  unfold Grid.vidx lin at *
  rw [u32_of_lt (n := g.size + 1) (by omega), toU32_of (i := p.y + g.half) (by omega) (by omega),
    toU32_of (i := p.x + g.half) (by omega) (by omega), toU32_of (i := p.z + g.half) (by omega) (by omega)]
  set n := g.size + 1
  set a := (p.y + g.half).toNat
  set b := (p.x + g.half).toNat
  set c := (p.z + g.half).toNat
  have k1 : (a * n + b) ≤ (a * n + b) * n := Nat.le_mul_of_pos_right _ (by omega)
  dsimp only
  rw [u32_of_lt (n := a * n) (by omega), u32_of_lt (n := a * n + b) (by omega),
    u32_of_lt (n := (a * n + b) * n) (by omega), u32_of_lt (by omega)]

theorem Grid.pointToIndex_none (p : IVec3) (hp : ¬ Spec.InCube g.half p) : g.pointToIndex p = none := by
  unfold Grid.pointToIndex
  rw [if_neg]
  rw [isVertexInGrid_iff]; exact hp

theorem Grid.pointToIndex_some (hg : g.WF) {p : IVec3} {i : Nat} (h : g.pointToIndex p = some i) :
    Spec.InCube g.half p ∧ i = g.vidx p := by
  by_cases hp : Spec.InCube g.half p
  · rw [pointToIndex_eq hg hp] at h
    exact ⟨hp, by simpa using h.symm⟩
  · rw [pointToIndex_none _ hp] at h; cases h

theorem Grid.indexToPoint_vidx (hg : g.WF) {p : IVec3} (hp : Spec.InCube g.half p) :
    g.indexToPoint (g.vidx p) = some p := by
  have hlt := vidx_lt hg hp
  have h2 := hg.half_eq
  have h3 := hg.le
  obtain ⟨⟨_, _⟩, ⟨_, _⟩, _, _⟩ := hp
  unfold Grid.indexToPoint
  rw [dataSizeOf_eq hg.le, if_pos hlt, u32_of_lt (n := g.size + 1) (by omega)]
  unfold Grid.vidx
  simp only
  rw [lin_mod (by omega), lin_div_mod (by omega) (by omega), lin_div_div (by omega) (by omega)]
  congr 1
  cases p
  simp only [IVec3.mk.injEq] at *
  omega

theorem Grid.exists_vidx (hg : g.WF) {i : Nat} (hi : i < g.dataSize) :
    ∃ p, Spec.InCube g.half p ∧ g.vidx p = i := by
  have h2 := hg.half_eq
  unfold Grid.dataSize at hi
  rw [dataSizeOf_eq hg.le] at hi
  set n := g.size + 1 with hn
  have hn0 : 0 < n := by omega
  have a1 : i % n < n := Nat.mod_lt _ hn0
  have a2 : i / n % n < n := Nat.mod_lt _ hn0
  have a3 : i / n / n < n := by
    rw [Nat.div_div_eq_div_mul]
    exact Nat.div_lt_of_lt_mul hi
  refine ⟨⟨((i / n % n : Nat) : Int) - g.half, ((i / n / n : Nat) : Int) - g.half, ((i % n : Nat) : Int) - g.half⟩,
    ?_, ?_⟩
  · generalize i / n / n = u at *
    generalize i / n % n = v at *
    generalize i % n = w at *
    unfold Spec.InCube; simp only; omega
  · unfold Grid.vidx
    simp only [Int.sub_add_cancel, Int.toNat_natCast]
    exact lin_decomp n i

theorem Grid.vidx_inj (hg : g.WF) {p q : IVec3} (hp : Spec.InCube g.half p) (hq : Spec.InCube g.half q)
    (h : g.vidx p = g.vidx q) : p = q := by
  have h1 := indexToPoint_vidx hg hp
  rw [h, indexToPoint_vidx hg hq] at h1
  simpa using h1.symm

theorem lin_lt_lin_iff {n a b c a' b' c' : Nat} (hb : b < n) (hc : c < n) (hb' : b' < n)
    (hc' : c' < n) :
    lin n a b c < lin n a' b' c' ↔ a < a' ∨ (a = a' ∧ (b < b' ∨ (b = b' ∧ c < c'))) := by
  have key : ∀ {u v u' v' : Nat}, v < n → v' < n → (u * n + v < u' * n + v' ↔ u < u' ∨ (u = u' ∧ v < v')) := by
    intro u v u' v' hv hv'
    rcases Nat.lt_trichotomy u u' with h | h | h
    · have : (u + 1) * n ≤ u' * n := Nat.mul_le_mul_right n h
      rw [Nat.add_mul] at this
      constructor
      · intro _; exact Or.inl h
      · intro _; omega
    · subst h; constructor
      · intro _; right; exact ⟨rfl, by omega⟩
      · intro h; omega
    · have : (u' + 1) * n ≤ u * n := Nat.mul_le_mul_right n h
      rw [Nat.add_mul] at this
      constructor
      · intro _; omega
      · intro _; omega
  unfold lin
  rw [key hc hc', key hb hb']
  have : a * n + b = a' * n + b' ↔ a = a' ∧ b = b' := by
    have k1 := key (u := a) (u' := a') hb hb'
    have k2 := key (u := a') (u' := a) hb' hb
    constructor
    · intro h
      have n1 : ¬ (a < a' ∨ a = a' ∧ b < b') := by rw [← k1]; omega
      have n2 : ¬ (a' < a ∨ a' = a ∧ b' < b) := by rw [← k2]; omega
      omega
    · rintro ⟨rfl, rfl⟩; rfl
  rw [this]
  omega

theorem Grid.vidx_lt_iff (hg : g.WF) {p q : IVec3} (hp : Spec.InCube g.half p) (hq : Spec.InCube g.half q) :
    g.vidx p < g.vidx q ↔ Spec.LexYXZ p q := by
  have h2 := hg.half_eq
  obtain ⟨⟨_, _⟩, ⟨_, _⟩, _, _⟩ := hp
  obtain ⟨⟨_, _⟩, ⟨_, _⟩, _, _⟩ := hq
  unfold Grid.vidx
  rw [lin_lt_lin_iff (by omega) (by omega) (by omega) (by omega)]
  unfold Spec.LexYXZ
  omega

theorem Grid.vidx_int {p : IVec3} (hp : Spec.InCube g.half p) :
    (g.vidx p : Int) = ((p.y + g.half) * (g.size + 1) + (p.x + g.half)) * (g.size + 1) + (p.z + g.half) := by
  obtain ⟨⟨_, _⟩, ⟨_, _⟩, _, _⟩ := hp
  unfold Grid.vidx lin
  push_cast
  rw [Int.toNat_of_nonneg (by omega), Int.toNat_of_nonneg (by omega), Int.toNat_of_nonneg (by omega)]

end
end Isomesh
