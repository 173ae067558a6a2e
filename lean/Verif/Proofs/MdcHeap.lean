import Verif.Model.MdcOctree
import Mathlib.Logic.Relation

/-! Chains of parents in the heap of vertices of an `MDC_Octree`. -/

namespace Isomesh

variable {K : Type}

/-- The parent of `a` is `b`. -/
def Par (h : MdcHeap K) (a b : Nat) : Prop := ∃ v, h[a]? = some v ∧ v.parent = some b

/-- `m_collapsible` of the vertex at `a`. -/
noncomputable def collAt (h : MdcHeap K) (a : Nat) : Bool := ((h[a]?).map (·.collapsible)).getD false

/-- Parents are at greater addresses. -/
def HeapOK (h : MdcHeap K) : Prop := ∀ a b, Par h a b → a < b ∧ b < h.length

/-- `b` is `a` or an ancestor of `a`. -/
abbrev Anc (h : MdcHeap K) : Nat → Nat → Prop := Relation.ReflTransGen (Par h)

/-- `r` is the root of the tree of `a`. -/
def IsTop (h : MdcHeap K) (a r : Nat) : Prop := Anc h a r ∧ ∀ b, ¬ Par h r b

/-- `r` is the highest collapsible vertex above `a`. -/
def Vis (h : MdcHeap K) (a r : Nat) : Prop := Anc h a r ∧ collAt h r = true ∧ ∀ q, Relation.TransGen (Par h) r q → collAt h q = false

section
variable {h : MdcHeap K}

theorem par_fun {a b c : Nat} (h1 : Par h a b) (h2 : Par h a c) : b = c := by
  obtain ⟨v, e1, e2⟩ := h1
  obtain ⟨w, e3, e4⟩ := h2
  rw [e1] at e3; cases e3
  rw [e2] at e4; exact Option.some.inj e4

theorem par_lt {a b : Nat} (h1 : Par h a b) : a < h.length := by
  obtain ⟨v, e1, -⟩ := h1
  exact (List.getElem?_eq_some_iff.1 e1).1

theorem anc_le (ok : HeapOK h) {a b : Nat} (hab : Anc h a b) : a ≤ b := by
  induction hab with
  | refl => exact le_refl _
  | tail _ h2 ih => have := ok _ _ h2; omega

theorem anc_lt_length (ok : HeapOK h) {a b : Nat} (hab : Anc h a b) (ha : a < h.length) : b < h.length := by
  induction hab with
  | refl => exact ha
  | tail _ h2 ih => exact (ok _ _ h2).2

theorem trans_lt (ok : HeapOK h) {a b : Nat} (hab : Relation.TransGen (Par h) a b) : a < b := by
  induction hab with
  | single h1 => exact (ok _ _ h1).1
  | tail _ h2 ih => have := ok _ _ h2; omega

/-- Ancestors form a chain. -/
theorem anc_chain {a b c : Nat} (h1 : Anc h a b) (h2 : Anc h a c) : Anc h b c ∨ Anc h c b := by
  induction h1 with
  | refl => exact Or.inl h2
  | tail h3 h4 ih =>
    rename_i x y
    rcases ih with h5 | h5
    · rcases Relation.ReflTransGen.cases_head h5 with rfl | ⟨z, h6, h7⟩
      · exact Or.inr (Relation.ReflTransGen.single h4)
      · rw [par_fun h4 h6]; exact Or.inl h7
    · exact Or.inr (h5.tail h4)

theorem top_exists (ok : HeapOK h) {a : Nat} (ha : a < h.length) : ∃ r, IsTop h a r := by
  induction hn : h.length - a using Nat.strong_induction_on generalizing a with
  | _ n ih =>
    by_cases hp : ∃ b, Par h a b
    · obtain ⟨b, hb⟩ := hp
      have := ok _ _ hb
      obtain ⟨r, h1, h2⟩ := ih (h.length - b) (by omega) this.2 rfl
      exact ⟨r, h1.head hb, h2⟩
    · exact ⟨a, Relation.ReflTransGen.refl, fun b hb => hp ⟨b, hb⟩⟩

theorem top_anc {a r : Nat} (h1 : ∀ b, ¬ Par h a b) (h2 : Anc h a r) : r = a := by
  rcases Relation.ReflTransGen.cases_head h2 with e | ⟨z, h6, -⟩
  · exact e.symm
  · exact absurd h6 (h1 z)

theorem top_unique {a r r' : Nat} (h1 : IsTop h a r) (h2 : IsTop h a r') : r = r' := by
  rcases anc_chain h1.1 h2.1 with h3 | h3
  · exact (top_anc h1.2 h3).symm
  · exact top_anc h2.2 h3

theorem top_lt (ok : HeapOK h) {a r : Nat} (ha : a < h.length) (h1 : IsTop h a r) : r < h.length := anc_lt_length ok h1.1 ha

theorem top_of_par {a b r : Nat} (hp : Par h a b) (ht : IsTop h b r) : IsTop h a r := ⟨ht.1.head hp, ht.2⟩

theorem highestAncestor_top (ok : HeapOK h) {a r : Nat} (ha : a < h.length) (ht : IsTop h a r) : highestAncestor h a = some r := by
  induction hn : h.length - a using Nat.strong_induction_on generalizing a with
  | _ n ih =>
    have e : h[a]? = some h[a] := List.getElem?_eq_getElem ha
    rw [highestAncestor, e]
    dsimp only
    cases hp : h[a].parent with
    | none =>
      dsimp only
      rcases Relation.ReflTransGen.cases_head ht.1 with rfl | ⟨z, ⟨v, h6, h7⟩, -⟩
      · rfl
      · rw [e] at h6; cases h6; rw [hp] at h7; cases h7
    | some p =>
      dsimp only
      have hpar : Par h a p := ⟨_, e, hp⟩
      have := ok _ _ hpar
      obtain ⟨r', hr'⟩ := top_exists ok this.2
      have : r = r' := top_unique ht (top_of_par hpar hr')
      subst this
      exact ih (h.length - p) (by omega) (by omega) hr' rfl

theorem collAt_eq {a : Nat} {v : MdcVertex K} (e : h[a]? = some v) : collAt h a = v.collapsible := by unfold collAt; rw [e]; rfl

theorem highestLoop (ok : HeapOK h) {p : Nat} (hp : p < h.length) (res : Option Nat) :
    (∃ r, Vis h p r ∧ highestCollapsibleLoop h res (some p) = some (some r)) ∨
    ((∀ q, Anc h p q → collAt h q = false) ∧ highestCollapsibleLoop h res (some p) = some res) := by
  induction hn : h.length - p using Nat.strong_induction_on generalizing p res with
  | _ n ih =>
    have e : h[p]? = some h[p] := List.getElem?_eq_getElem hp
    have hc := collAt_eq e
    rw [highestCollapsibleLoop, e]
    dsimp only
    cases hpar : h[p].parent with
    | none =>
      have nop : ∀ b, ¬ Par h p b := by
        rintro b ⟨v, h6, h7⟩
        rw [e] at h6; cases h6; rw [hpar] at h7; cases h7
      rw [highestCollapsibleLoop]
      by_cases hcol : h[p].collapsible = true
      · left
        refine ⟨p, ⟨Relation.ReflTransGen.refl, hc.trans hcol, ?_⟩, by rw [if_pos hcol]⟩
        intro q hq
        obtain ⟨b, hb, -⟩ := Relation.TransGen.head'_iff.1 hq
        exact absurd hb (nop b)
      · right
        refine ⟨?_, by rw [if_neg hcol]⟩
        intro q hq
        rw [top_anc nop hq, hc]
        simpa using hcol
    | some b =>
      have hb : Par h p b := ⟨_, e, hpar⟩
      have := ok _ _ hb
      rcases ih (h.length - b) (by omega) this.2 (if h[p].collapsible = true then some p else res) rfl with ⟨r, h1, h2⟩ | ⟨h1, h2⟩
      · left
        exact ⟨r, ⟨h1.1.head hb, h1.2⟩, h2⟩
      · by_cases hcol : h[p].collapsible = true
        · left
          rw [if_pos hcol] at h2 ⊢
          refine ⟨p, ⟨Relation.ReflTransGen.refl, hc.trans hcol, ?_⟩, h2⟩
          intro q hq
          obtain ⟨b', hb', h3⟩ := Relation.TransGen.head'_iff.1 hq
          rw [par_fun hb' hb] at h3
          exact h1 q h3
        · right
          rw [if_neg hcol] at h2 ⊢
          refine ⟨?_, h2⟩
          intro q hq
          rcases Relation.ReflTransGen.cases_head hq with rfl | ⟨b', hb', h3⟩
          · rw [hc]; simpa using hcol
          · rw [par_fun hb' hb] at h3
            exact h1 q h3

theorem highestCollapsible (ok : HeapOK h) {a : Nat} (ha : a < h.length) (hc : collAt h a = true) :
    ∃ r, Vis h a r ∧ highestCollapsibleAncestor h a = some (some r) := by
  have e : h[a]? = some h[a] := List.getElem?_eq_getElem ha
  rcases highestLoop ok ha none with ⟨r, h1, h2⟩ | ⟨h1, -⟩
  · refine ⟨r, h1, ?_⟩
    rw [highestCollapsibleLoop, e] at h2
    unfold highestCollapsibleAncestor
    rw [e]
    exact h2
  · have := h1 a Relation.ReflTransGen.refl
    rw [hc] at this; cases this

theorem vis_unique {a r r' : Nat} (h1 : Vis h a r) (h2 : Vis h a r') : r = r' := by
  have key : ∀ r r', Vis h a r → Vis h a r' → Anc h r r' → r = r' := by
    intro r r' h1 h2 h3
    rcases Relation.reflTransGen_iff_eq_or_transGen.1 h3 with e | h4
    · exact e.symm
    · have := h1.2.2 _ h4
      rw [h2.2.1] at this; cases this
  rcases anc_chain h1.1 h2.1 with h3 | h3
  · exact key _ _ h1 h2 h3
  · exact (key _ _ h2 h1 h3).symm

theorem hasCollapsible (ok : HeapOK h) {v : Option Nat} (hv : ∀ p, v = some p → p < h.length) :
    ∃ b, hasCollapsibleAncestor h v = some b ∧ (b = true ↔ ∃ p, v = some p ∧ ∃ q, Anc h p q ∧ collAt h q = true) := by
  cases v with
  | none => rw [hasCollapsibleAncestor]; exact ⟨false, rfl, by simp⟩
  | some p =>
    have hp := hv p rfl
    clear hv
    induction hn : h.length - p using Nat.strong_induction_on generalizing p with
    | _ n ih =>
      have e : h[p]? = some h[p] := List.getElem?_eq_getElem hp
      have hc := collAt_eq e
      rw [hasCollapsibleAncestor, e]
      dsimp only
      by_cases hcol : h[p].collapsible = true
      · rw [if_pos hcol]
        exact ⟨true, rfl, by simpa using ⟨p, Relation.ReflTransGen.refl, hc.trans hcol⟩⟩
      · rw [if_neg hcol]
        cases hpar : h[p].parent with
        | none =>
          have nop : ∀ b, ¬ Par h p b := by
            rintro b ⟨v, h6, h7⟩
            rw [e] at h6; cases h6; rw [hpar] at h7; cases h7
          rw [hasCollapsibleAncestor]
          refine ⟨false, rfl, ?_⟩
          constructor
          · intro h; cases h
          · rintro ⟨p', hp', q, hq, hcq⟩
            cases hp'
            rw [top_anc nop hq, hc] at hcq
            exact absurd hcq hcol
        | some b =>
          have hb : Par h p b := ⟨_, e, hpar⟩
          have := ok _ _ hb
          obtain ⟨r, h1, h2⟩ := ih (h.length - b) (by omega) b this.2 rfl
          refine ⟨r, h1, h2.trans ?_⟩
          constructor
          · rintro ⟨p', hp', q, hq, hcq⟩
            cases hp'
            exact ⟨p, rfl, q, hq.head hb, hcq⟩
          · rintro ⟨p', hp', q, hq, hcq⟩
            cases hp'
            rcases Relation.ReflTransGen.cases_head hq with rfl | ⟨b', hb', h3⟩
            · rw [hc] at hcq; exact absurd hcq hcol
            · rw [par_fun hb' hb] at h3
              exact ⟨b, rfl, q, h3, hcq⟩

/-- A chain of parents in another heap with the same parents on it. -/
theorem anc_congr {h' : MdcHeap K} {a r : Nat} (hp : ∀ x y, Anc h a x → Par h x y → Par h' x y) (hr : Anc h a r) : Anc h' a r := by
  induction hr with
  | refl => exact Relation.ReflTransGen.refl
  | tail h1 h2 ih => exact ih.tail (hp _ _ h1 h2)

end
end Isomesh
