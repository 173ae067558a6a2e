import Verif.Model.EdgeStorage
import Verif.Spec.Geometry

/-! Binary search and ordering of edge records. -/

namespace Isomesh
open Spec

theorem edgeLess_iff (a b : IVec3) : edgeLess a b = true ↔ LexYXZ a b := by
  unfold edgeLess LexYXZ
  split_ifs <;> simp <;> omega

theorem edgeLess_false_iff (a b : IVec3) : edgeLess a b = false ↔ ¬ LexYXZ a b := by
  rw [← edgeLess_iff]; simp

theorem Spec.LexYXZ.trans {a b c : IVec3} (h : LexYXZ a b) (h' : LexYXZ b c) : LexYXZ a c := by
  unfold LexYXZ at *; omega

theorem Spec.LexYXZ.irrefl (a : IVec3) : ¬ LexYXZ a a := by unfold LexYXZ; omega

theorem Spec.LexYXZ.trichotomy (a b : IVec3) : LexYXZ a b ∨ a = b ∨ LexYXZ b a := by
  cases a; cases b
  simp only [LexYXZ, IVec3.mk.injEq]
  omega

theorem lowerBound_spec {α : Type} (l : List α) (less : α → Bool)
    (hs : l.Pairwise (fun a b => less b = true → less a = true)) :
    ∀ (len first : Nat), first + len ≤ l.length →
      (∀ i a, i < first → l[i]? = some a → less a = true) →
      (∀ i a, first + len ≤ i → l[i]? = some a → less a = false) →
      (lowerBound l less first len ≤ l.length ∧
       (∀ i a, i < lowerBound l less first len → l[i]? = some a → less a = true) ∧
       (∀ i a, lowerBound l less first len ≤ i → l[i]? = some a → less a = false)) := by
  have hs' : ∀ (i j : Nat) (a b : α), i < j → l[i]? = some a → l[j]? = some b → less b = true → less a = true := by
    intro i j a b hij ha hb
    obtain ⟨hi, rfl⟩ := List.getElem?_eq_some_iff.1 ha
    obtain ⟨hj, rfl⟩ := List.getElem?_eq_some_iff.1 hb
    exact List.pairwise_iff_getElem.1 hs i j hi hj hij
  intro len
  induction len using Nat.strong_induction_on with
  | _ len ih =>
    intro first hle h1 h2
    rw [lowerBound]
    split
    · next h0 => subst h0; exact ⟨by omega, h1, h2⟩
    · next h0 =>
      have hm : first + len / 2 < l.length := by omega
      simp only [List.getElem?_eq_getElem hm]
      split
      · next hl =>
        apply ih (len - len / 2 - 1) (by omega) _ (by omega)
        · intro i a hi ha
          by_cases e : i = first + len / 2
          · subst e; rw [List.getElem?_eq_getElem hm] at ha; cases ha; exact hl
          · exact hs' i (first + len / 2) a _ (by omega) ha (List.getElem?_eq_getElem hm) hl
        · intro i a hi ha; exact h2 i a (by omega) ha
      · next hl =>
        apply ih (len / 2) (by omega) _ (by omega) h1
        intro i a hi ha
        by_cases e : i = first + len / 2
        · subst e; rw [List.getElem?_eq_getElem hm] at ha; cases ha; simpa using hl
        · by_contra hc
          exact hl (hs' (first + len / 2) i _ a (by omega) (List.getElem?_eq_getElem hm) ha (by simpa using hc))

variable {K : Type}

/-- Sortedness in the sense required by `findEdge`: no later edge is less than an earlier one. -/
def SortedEdges (s : List (GridEdge K)) : Prop := s.Pairwise (fun a b => ¬ LexYXZ b.lesser a.lesser)

theorem findEdge_spec (s : List (GridEdge K)) (hs : SortedEdges s)
    (hfit : ∀ e ∈ s, fitsInt16 e.lesser.x = true ∧ fitsInt16 e.lesser.y = true ∧ fitsInt16 e.lesser.z = true)
    (x y z : Int) :
    (∀ i, findEdge s x y z = some i → ∃ e, s[i]? = some e ∧ e.lesser = ⟨x, y, z⟩ ∧
        ∀ j e', j < i → s[j]? = some e' → e'.lesser ≠ ⟨x, y, z⟩) ∧
    (findEdge s x y z = none ↔ ∀ e ∈ s, e.lesser ≠ ⟨x, y, z⟩) := by
  unfold findEdge
  have hout : (x > 32767 ∨ y > 32767 ∨ z > 32767) ∨ (x < -32768 ∨ y < -32768 ∨ z < -32768) →
      ∀ e ∈ s, e.lesser ≠ ⟨x, y, z⟩ := by
    intro h e he h'
    have := hfit e he
    rw [h'] at this
    unfold fitsInt16 at this
    simp at this
    omega
  split_ifs with ha hb
  · exact ⟨by simp, by simpa using hout (Or.inl ha)⟩
  · exact ⟨by simp, by simpa using hout (Or.inr hb)⟩
  · dsimp only
    have hmono : s.Pairwise (fun a b => edgeLess b.lesser ⟨x, y, z⟩ = true → edgeLess a.lesser ⟨x, y, z⟩ = true) := by
      refine hs.imp ?_
      intro a b hab
      rw [edgeLess_iff, edgeLess_iff]
      intro hb
      rcases LexYXZ.trichotomy a.lesser b.lesser with h | h | h
      · exact h.trans hb
      · rw [h]; exact hb
      · exact absurd h hab
    obtain ⟨h1, h2, h3⟩ := lowerBound_spec s (fun e => edgeLess e.lesser ⟨x, y, z⟩) hmono s.length 0 (by omega)
      (by intro i a h; omega) (by
        intro i a h ha
        rw [List.getElem?_eq_none (by omega)] at ha; cases ha)
    set r := lowerBound s (fun e => edgeLess e.lesser ⟨x, y, z⟩) 0 s.length with hr
    have hlow : ∀ j e', j < r → s[j]? = some e' → e'.lesser ≠ ⟨x, y, z⟩ := by
      intro j e' hj he' h'
      have := h2 j e' hj he'
      rw [edgeLess_iff, h'] at this
      exact LexYXZ.irrefl _ this
    cases hget : s[r]? with
    | none =>
      refine ⟨by simp, ?_⟩
      simp only [true_iff]
      intro e he h'
      obtain ⟨i, hi, rfl⟩ := List.getElem_of_mem he
      have hri : s.length ≤ r := by simpa using hget
      exact hlow i _ (by omega) (List.getElem?_eq_getElem hi) h'
    | some e =>
      dsimp only
      have hne : (e.lesser.x ≠ x ∨ e.lesser.y ≠ y ∨ e.lesser.z ≠ z) ↔ e.lesser ≠ ⟨x, y, z⟩ := by
        cases e.lesser; simp only [ne_eq, IVec3.mk.injEq]; tauto
      split_ifs with hc
      · refine ⟨by simp, ?_⟩
        simp only [true_iff]
        intro e' he' h'
        obtain ⟨i, hi, rfl⟩ := List.getElem_of_mem he'
        rcases Nat.lt_or_ge i r with hir | hir
        · exact hlow i _ hir (List.getElem?_eq_getElem hi) h'
        · rcases Nat.eq_or_lt_of_le hir with e1 | hlt
          · subst e1
            rw [List.getElem?_eq_getElem hi] at hget
            cases hget
            exact (hne.1 hc) h'
          · obtain ⟨hr', hre⟩ := List.getElem?_eq_some_iff.1 hget
            have hs1 := List.pairwise_iff_getElem.1 hs r i hr' hi hlt
            have hs2 := h3 r e (le_refl _) hget
            rw [edgeLess_false_iff] at hs2
            rw [hre, h'] at hs1
            rcases LexYXZ.trichotomy e.lesser ⟨x, y, z⟩ with h | h | h
            · exact hs2 h
            · exact (hne.1 hc) h
            · exact hs1 h
      · refine ⟨?_, ?_⟩
        · intro i hi
          simp only [Option.some.injEq] at hi
          subst hi
          have he : e.lesser = ⟨x, y, z⟩ := by
            by_contra h; exact hc (hne.2 h)
          exact ⟨e, hget, he, hlow⟩
        · simp only [reduceCtorEq, false_iff]
          intro hall
          have he : e.lesser = ⟨x, y, z⟩ := by
            by_contra h; exact hc (hne.2 h)
          exact hall e (List.mem_of_getElem? hget) he

theorem sortEdges_perm (s : List (GridEdge K)) : (sortEdges s).Perm s := List.mergeSort_perm _ _

theorem sortEdges_sorted (s : List (GridEdge K)) : SortedEdges (sortEdges s) := by
  unfold sortEdges SortedEdges
  have := List.pairwise_mergeSort (le := fun (a b : GridEdge K) => !edgeLess b.lesser a.lesser)
    (by
      intro a b c h1 h2
      simp only [Bool.not_eq_true', edgeLess_false_iff] at *
      intro h
      rcases LexYXZ.trichotomy a.lesser b.lesser with h' | h' | h'
      · exact h2 (h.trans h')
      · rw [h'] at h; exact h2 h
      · exact h1 h')
    (by
      intro a b
      by_cases h : edgeLess b.lesser a.lesser = true
      · have : edgeLess a.lesser b.lesser = false := by
          rw [edgeLess_false_iff]; rw [edgeLess_iff] at h
          intro h'; exact LexYXZ.irrefl _ (h.trans h')
        simp [this]
      · simp [h]) s
  refine List.Pairwise.imp ?_ this
  intro a b h
  simpa [edgeLess_false_iff] using h

end Isomesh
