import Verif.Basic

/-! Hoare-style rules for the loop combinators. -/

namespace Isomesh

/-- Integers `lo, lo+1, ..., hi-1`. -/
def irange (lo hi : Int) : List Int := (List.range (hi - lo).toNat).map (fun (i : Nat) => lo + i)

theorem irange_self (lo : Int) : irange lo lo = [] := by simp [irange]

theorem irange_succ {lo v : Int} (h : lo ≤ v) : irange lo (v + 1) = irange lo v ++ [v] := by
  unfold irange
  have : (v + 1 - lo).toNat = (v - lo).toNat + 1 := by omega
  rw [this, List.range_succ, List.map_append]
  simp only [List.map_cons, List.map_nil]
  congr 2
  omega

theorem mem_irange {lo hi v : Int} : v ∈ irange lo hi ↔ lo ≤ v ∧ v < hi := by
  unfold irange
  simp only [List.mem_map, List.mem_range]
  constructor
  · rintro ⟨a, ha, rfl⟩; omega
  · intro h; exact ⟨(v - lo).toNat, by omega, by omega⟩

theorem irange_pairwise (lo hi : Int) : (irange lo hi).Pairwise (· < ·) := by
  unfold irange
  rw [List.pairwise_map]
  exact List.pairwise_lt_range.imp (by intro a b h; omega)

theorem foldlM_range_inv {σ : Type} {n : Nat} {f : σ → Nat → Option σ} {s : σ} (P : Nat → σ → Prop) (h0 : P 0 s)
    (hs : ∀ i, i < n → ∀ s, P i s → ∃ s', f s i = some s' ∧ P (i + 1) s') :
    ∃ s', (List.range n).foldlM f s = some s' ∧ P n s' := by
  induction n with
  | zero => exact ⟨s, rfl, h0⟩
  | succ n ih =>
    obtain ⟨s', e, hp⟩ := ih (fun i hi => hs i (by omega))
    obtain ⟨s'', e', hp'⟩ := hs n (by omega) s' hp
    refine ⟨s'', ?_, hp'⟩
    rw [List.range_succ, List.foldlM_append, e]
    simp [e']

theorem forLT_inv {σ : Type} {lo hi : Int} (h : lo ≤ hi) {s : σ} {body : σ → Int → Option σ}
    (P : Int → σ → Prop) (h0 : P lo s)
    (hs : ∀ v s, lo ≤ v → v < hi → P v s → ∃ s', body s v = some s' ∧ P (v + 1) s') :
    ∃ s', forLT lo hi s body = some s' ∧ P hi s' := by
  unfold forLT
  obtain ⟨s', e, hp⟩ := foldlM_range_inv (n := (hi - lo).toNat) (f := fun s (i : Nat) => body s (lo + i)) (s := s)
    (fun i s => P (lo + i) s) (by simpa using h0) (by
      intro i hi s hp
      obtain ⟨s', e, hp'⟩ := hs (lo + i) s (by omega) (by omega) hp
      refine ⟨s', e, ?_⟩
      have : lo + ((i + 1 : Nat) : Int) = lo + i + 1 := by push_cast; ring
      rw [this]; exact hp')
  refine ⟨s', e, ?_⟩
  have : lo + (((hi - lo).toNat : Nat) : Int) = hi := by omega
  simp only [this] at hp
  exact hp

theorem forLE_inv {σ : Type} {lo hi : Int} (h : lo ≤ hi + 1) {s : σ} {body : σ → Int → Option σ}
    (P : Int → σ → Prop) (h0 : P lo s)
    (hs : ∀ v s, lo ≤ v → v ≤ hi → P v s → ∃ s', body s v = some s' ∧ P (v + 1) s') :
    ∃ s', forLE lo hi s body = some s' ∧ P (hi + 1) s' :=
  forLT_inv h P h0 (fun v s h1 h2 => hs v s h1 (by omega))

end Isomesh
