import Verif.Model.MaterialFilter
import Mathlib.Data.List.Count

/-! C31-C33: material filters. -/

namespace Isomesh

/-! ### Specification: how a filter was built, and what went into it -/

/-- Ways to obtain a filter with the public API. -/
inductive FilterHistory
  | new
  | add (h : FilterHistory) (m : Material)
  | addMany (h : FilterHistory) (ms : List Material)
  | merge (h g : FilterHistory)
  | reset (h : FilterHistory)

namespace FilterHistory

/-- Everything that went into the filter since its last reset. -/
def inputs : FilterHistory → List Material
  | new => []
  | add h m => h.inputs ++ [m]
  | addMany h ms => h.inputs ++ ms
  | merge h g => h.inputs ++ g.inputs
  | reset _ => []

/-- Number of merge calls which contributed. -/
def merges : FilterHistory → Nat
  | new => 0
  | add h _ => h.merges
  | addMany h _ => h.merges
  | merge h g => h.merges + g.merges + 1
  | reset _ => 0

/-- The non-`Empty` materials that went in. -/
def solids (h : FilterHistory) : List Material := h.inputs.filter (· ≠ .Empty)

/-- Material `a` is a strict majority of the non-`Empty` inputs. -/
def Majority (h : FilterHistory) (a : Material) : Prop :=
  a ≠ .Empty ∧ h.solids.length < 2 * h.solids.count a

/-- The fast filter after the history. -/
def fast : FilterHistory → FilterFast
  | new => FilterFast.new
  | add h m => h.fast.add m
  | addMany h ms => h.fast.addMany ms
  | merge h g => h.fast.merge g.fast
  | reset _ => FilterFast.new

/-- The precise filter after the history. -/
def precise : FilterHistory → FilterPrecise
  | new => FilterPrecise.new
  | add h m => h.precise.add m
  | addMany h ms => h.precise.addMany ms
  | merge h g => h.precise.merge g.precise
  | reset _ => FilterPrecise.new

end FilterHistory

open FilterHistory

/-! ### Fast filter -/

/-- `#a - #others` among non-`Empty` materials. -/
def margin (a : Material) (ms : List Material) : Int :=
  2 * ((ms.filter (· ≠ .Empty)).count a : Int) - (ms.filter (· ≠ .Empty)).length

theorem margin_append (a : Material) (l r : List Material) : margin a (l ++ r) = margin a l + margin a r := by
  simp only [margin, List.filter_append, List.count_append, List.length_append]; push_cast; ring

def upot (a : Material) (f : FilterFast) : Int :=
  if f.candidate = .Empty then 0 else if f.candidate = a then f.count else 1 - f.count

structure FastInv (f : FilterFast) (ins : List Material) (k : Nat) : Prop where
  empty : f.candidate = .Empty → f.count = 0 ∧ ins.filter (· ≠ .Empty) = []
  nonempty : f.candidate ≠ .Empty → 1 ≤ f.count ∧ f.candidate ∈ ins
  le : f.count ≤ ins.length
  pot : ∀ a, a ≠ .Empty → margin a ins ≤ upot a f + k

theorem FastInv.new : FastInv FilterFast.new [] 0 :=
  ⟨fun _ => ⟨rfl, rfl⟩, fun h => absurd rfl h, le_refl 0, fun a _ => by simp [margin, upot, FilterFast.new]⟩

theorem FastInv.add {f : FilterFast} {ins : List Material} {k : Nat} (h : FastInv f ins k) (m : Material)
    (hb : ins.length + 1 < 4294967296) : FastInv (f.add m) (ins ++ [m]) k := by
  have hle := h.le
  by_cases hm : m = .Empty
  · subst hm
    have e : f.add .Empty = f := by simp [FilterFast.add]
    rw [e]
    refine ⟨?_, fun h' => ⟨(h.nonempty h').1, ?_⟩, by simp; omega, ?_⟩
    · intro h'; simpa using h.empty h'
    · exact List.mem_append_left _ (h.nonempty h').2
    · intro a ha
      rw [margin_append]; have := h.pot a ha; simpa [margin] using this
  · unfold FilterFast.add
    rw [if_neg hm]
    have hmarg : ∀ a, margin a (ins ++ [m]) = margin a ins + if a = m then 1 else -1 := by
      intro a
      rw [margin_append]
      congr 1
      by_cases e : a = m
      · subst e; simp [margin, hm]
      · have e' : ¬ m = a := fun x => e x.symm
        simp [margin, hm, e, e', List.count_singleton]
    by_cases hc : m = f.candidate
    · rw [if_pos hc]
      have hu : u32 (f.count + 1) = f.count + 1 := by unfold u32; omega
      rw [hu]
      refine ⟨fun h' => absurd (hc.trans h') hm, fun _ => ⟨by simp, ?_⟩, by simp; omega, ?_⟩
      · simp [← hc]
      · intro a ha
        rw [hmarg]
        have := h.pot a ha
        unfold upot at *
        simp only [← hc, hm, if_false] at *
        by_cases e : a = m
        · simp [e] at *; omega
        · have e' : ¬ m = a := fun x => e x.symm
          simp only [e, e', if_false] at *; push_cast; omega
    · rw [if_neg hc]
      by_cases hcnt : f.count > 1
      · rw [if_pos hcnt]
        have hne : f.candidate ≠ .Empty := fun e => by have := (h.empty e).1; omega
        have hu : u32sub f.count 1 = f.count - 1 := by unfold u32sub; omega
        rw [hu]
        refine ⟨fun h' => absurd h' hne, fun _ => ⟨by dsimp only; omega, ?_⟩, ?_, ?_⟩
        · exact List.mem_append_left _ (h.nonempty hne).2
        · simp; omega
        · intro a ha
          rw [hmarg]
          have := h.pot a ha
          unfold upot at *
          simp only [hne, if_false] at *
          by_cases e1 : a = m
          · subst e1
            have e' : ¬ f.candidate = a := fun x => hc x.symm
            simp only [e', if_false, if_true] at *; omega
          · by_cases e2 : f.candidate = a
            · simp only [e1, e2, if_false, if_true] at *; omega
            · simp only [e1, e2, if_false] at *; omega
      · rw [if_neg hcnt]
        refine ⟨fun h' => absurd h' hm, fun _ => ⟨le_refl 1, by simp⟩, by simp, ?_⟩
        intro a ha
        rw [hmarg]
        have := h.pot a ha
        unfold upot at *
        simp only [hm, if_false] at *
        by_cases e : a = m
        · subst e
          simp only [if_true] at *
          by_cases h0 : f.candidate = .Empty
          · simp only [h0, if_true] at this; omega
          · have := (h.nonempty h0).1
            have e' : ¬ f.candidate = a := fun x => hc x.symm
            simp only [h0, e', if_false] at *; omega
        · have e' : ¬ m = a := fun x => e x.symm
          simp only [e, e', if_false] at *
          by_cases h0 : f.candidate = .Empty
          · simp only [h0, if_true] at this; push_cast; omega
          · have := (h.nonempty h0).1
            by_cases e2 : f.candidate = a
            · simp only [h0, e2, if_false, if_true] at *; push_cast; split at this <;> omega
            · simp only [h0, e2, if_false] at *; push_cast; omega

theorem FastInv.addMany {f : FilterFast} {ins : List Material} {k : Nat} (ms : List Material)
    (h : FastInv f ins k) (hb : ins.length + ms.length < 4294967296) :
    FastInv (f.addMany ms) (ins ++ ms) k := by
  induction ms generalizing f ins with
  | nil => rw [List.append_nil]; exact h
  | cons m ms ih =>
    have := ih (h.add m (by simp at hb; omega)) (by simp at *; omega)
    rw [List.append_assoc] at this
    exact this

theorem FastInv.merge {f g : FilterFast} {ins ins' : List Material} {k k' : Nat} (h : FastInv f ins k)
    (h' : FastInv g ins' k') (hb : ins.length + ins'.length < 4294967296) :
    FastInv (f.merge g) (ins ++ ins') (k + k' + 1) := by
  have l1 := h.le
  have l2 := h'.le
  unfold FilterFast.merge
  by_cases hc : f.candidate = g.candidate
  · rw [if_pos hc]
    have hu : u32 (f.count + g.count) = f.count + g.count := by unfold u32; omega
    rw [hu]
    refine ⟨?_, ?_, by simp; omega, ?_⟩
    · intro e
      have e1 := h.empty e
      have e2 := h'.empty (hc ▸ e)
      exact ⟨by dsimp only; omega, by rw [List.filter_append, e1.2, e2.2]; rfl⟩
    · intro e
      have e1 := h.nonempty e
      exact ⟨by dsimp only; omega, List.mem_append_left _ e1.2⟩
    · intro a ha
      rw [margin_append]
      have p1 := h.pot a ha
      have p2 := h'.pot a ha
      unfold upot at *
      rw [← hc] at p2
      by_cases h0 : f.candidate = .Empty
      · simp only [h0, if_true] at *; push_cast; omega
      · by_cases e2 : f.candidate = a
        · simp only [ha, e2, if_false, if_true] at *; push_cast; omega
        · simp only [h0, e2, if_false] at *; push_cast; omega
  · rw [if_neg hc]
    by_cases hcnt : f.count > g.count
    · rw [if_pos hcnt]
      have hne : f.candidate ≠ .Empty := fun e => by have := (h.empty e).1; omega
      have hu : u32sub f.count g.count = f.count - g.count := by unfold u32sub; omega
      rw [hu]
      refine ⟨fun e => absurd e hne, fun _ => ⟨by dsimp only; omega, ?_⟩, ?_, ?_⟩
      · exact List.mem_append_left _ (h.nonempty hne).2
      · simp; omega
      · intro a ha
        rw [margin_append]
        have p1 := h.pot a ha
        have p2 := h'.pot a ha
        unfold upot at *
        by_cases h0 : g.candidate = .Empty
        · have := (h'.empty h0).1
          by_cases e2 : f.candidate = a
          · simp only [h0, ha, e2, if_false, if_true] at *; push_cast; omega
          · simp only [h0, hne, e2, if_false, if_true] at *; push_cast; omega
        · have := (h'.nonempty h0).1
          by_cases e2 : f.candidate = a
          · have e3 : g.candidate ≠ a := fun e => hc (e2.trans e.symm)
            simp only [h0, ha, e2, e3, if_false, if_true] at *; push_cast; omega
          · by_cases e3 : g.candidate = a
            · simp only [ha, e3, hne, e2, if_false, if_true] at *; push_cast; omega
            · simp only [h0, e3, hne, e2, if_false] at *; push_cast; omega
    · rw [if_neg hcnt]
      have hne : g.candidate ≠ .Empty := fun e => by
        have h0 := (h'.empty e).1
        rcases Classical.em (f.candidate = .Empty) with e' | e'
        · exact hc (e'.trans e.symm)
        · have := (h.nonempty e').1; omega
      have hu : u32sub g.count f.count = g.count - f.count := by unfold u32sub; omega
      rw [hu]
      have l3 := (h'.nonempty hne)
      refine ⟨fun e => absurd e hne, fun _ => ⟨by dsimp only; omega, ?_⟩, ?_, ?_⟩
      · exact List.mem_append_right _ l3.2
      · simp; omega
      · intro a ha
        rw [margin_append]
        have p1 := h.pot a ha
        have p2 := h'.pot a ha
        unfold upot at *
        dsimp only at *
        have hmax : ((max 1 (g.count - f.count) : Nat) : Int) = max 1 ((g.count : Int) - f.count) := by omega
        rw [hmax]
        by_cases h0 : f.candidate = .Empty
        · have := (h.empty h0).1
          by_cases e2 : g.candidate = a
          · simp only [h0, ha, e2, if_false, if_true] at *; push_cast; omega
          · simp only [h0, hne, e2, if_false, if_true] at *; push_cast; omega
        · have := (h.nonempty h0).1
          by_cases e2 : g.candidate = a
          · have e3 : f.candidate ≠ a := fun e => hc (e.trans e2.symm)
            simp only [h0, ha, e2, e3, if_false, if_true] at *; push_cast; omega
          · by_cases e3 : f.candidate = a
            · simp only [ha, e3, hne, e2, if_false, if_true] at *; push_cast; omega
            · simp only [h0, e3, hne, e2, if_false] at *; push_cast; omega

/-- Number of inputs over the whole life of the filters involved (for the counter overflow bound). -/
def FilterHistory.volume : FilterHistory → Nat
  | new => 0
  | add h _ => h.volume + 1
  | addMany h ms => h.volume + ms.length
  | merge h g => h.volume + g.volume
  | reset h => h.volume

theorem FilterHistory.inputs_le (h : FilterHistory) : h.inputs.length ≤ h.volume := by
  induction h <;> simp [inputs, volume] <;> omega

theorem fast_inv (h : FilterHistory) (hb : h.volume < 4294967296) : FastInv h.fast h.inputs h.merges := by
  induction h with
  | new => exact FastInv.new
  | add h m ih =>
    have := h.inputs_le
    simp only [volume] at hb
    exact (ih (by omega)).add m (by omega)
  | addMany h ms ih =>
    have := h.inputs_le
    simp only [volume] at hb
    exact (ih (by omega)).addMany ms (by omega)
  | merge h g ih1 ih2 =>
    have := h.inputs_le
    have := g.inputs_le
    simp only [volume] at hb
    exact (ih1 (by omega)).merge (ih2 (by omega)) (by omega)
  | reset h ih => exact FastInv.new

theorem margin_of_majority {h : FilterHistory} {a : Material} (hm : h.Majority a) : 1 ≤ margin a h.inputs := by
  have := hm.2
  unfold FilterHistory.solids at this
  unfold margin
  omega

theorem fast_select_of_margin {f : FilterFast} {ins : List Material} {k : Nat} (h : FastInv f ins k)
    {a : Material} (ha : a ≠ .Empty) (hk : (k : Int) < margin a ins) : f.select = a := by
  have hp := h.pot a ha
  have hpos : 0 < upot a f := by omega
  unfold upot at hpos
  unfold FilterFast.select
  by_cases h0 : f.candidate = .Empty
  · simp [h0] at hpos
  · by_cases e : f.candidate = a
    · exact e
    · have := (h.nonempty h0).1
      simp only [h0, e, if_false] at hpos; omega

/-- C31.  For any history of single and array additions and resets (fewer than 2^32 additions), the fast
filter selects `Empty` iff nothing non-`Empty` was added, otherwise one of the added non-`Empty` materials,
and a strict majority material whenever there is one. -/
theorem C31_fast_filter (h : FilterHistory) (hb : h.volume < 4294967296) (hm : h.merges = 0) :
    (h.fast.select = .Empty ↔ h.solids = []) ∧
    (h.solids ≠ [] → h.fast.select ∈ h.solids) ∧
    (∀ a, h.Majority a → h.fast.select = a) := by
  have hi := fast_inv h hb
  have key : h.fast.candidate ≠ .Empty → h.fast.candidate ∈ h.solids := fun e =>
    List.mem_filter.2 ⟨(hi.nonempty e).2, by simp [e]⟩
  refine ⟨⟨fun e => (hi.empty e).2, fun e => ?_⟩, fun e => ?_, fun a ha => ?_⟩
  · by_contra h0
    have := key h0
    rw [e] at this; cases this
  · exact key (fun h0 => e (hi.empty h0).2)
  · refine fast_select_of_margin hi ha.1 ?_
    have := margin_of_majority ha
    rw [hm]; push_cast; omega

/-- Non-vacuity of C31. -/
example : ((FilterHistory.new.addMany [.Soil, .Empty, .Stone]).add .Soil).Majority .Soil := by
  unfold FilterHistory.Majority; decide

/-- C32, the part that holds: with merges, the fast filter still selects `Empty` iff nothing non-`Empty`
went in, and otherwise one of the non-`Empty` inputs; material `a` is selected if it outnumbers all other
non-`Empty` inputs by more than the number of merges.  Missing: selection of *every* strict majority
(false, see `C32_merge_majority_fails`). -/
theorem C32_fast_merge_partial (h : FilterHistory) (hb : h.volume < 4294967296) :
    (h.fast.select = .Empty ↔ h.solids = []) ∧
    (h.solids ≠ [] → h.fast.select ∈ h.solids) ∧
    (∀ a, a ≠ .Empty → h.solids.length + h.merges < 2 * h.solids.count a → h.fast.select = a) := by
  have hi := fast_inv h hb
  have key : h.fast.candidate ≠ .Empty → h.fast.candidate ∈ h.solids := fun e =>
    List.mem_filter.2 ⟨(hi.nonempty e).2, by simp [e]⟩
  refine ⟨⟨fun e => (hi.empty e).2, fun e => ?_⟩, fun e => ?_, fun a ha h2 => ?_⟩
  · by_contra h0
    have := key h0
    rw [e] at this; cases this
  · exact key (fun h0 => e (hi.empty h0).2)
  · refine fast_select_of_margin hi ha ?_
    unfold FilterHistory.solids at h2
    unfold margin; omega

/-- C32 as a user expects it is false of the code: a merge can lose a strict majority. -/
theorem C32_merge_majority_fails :
    ¬ ∀ (h : FilterHistory) (a : Material), h.volume < 4294967296 → h.Majority a → h.fast.select = a := by
  intro hall
  have := hall (.merge (.add .new .Soil) (.addMany .new [.Soil, .Stone])) .Soil (by decide)
    (by unfold FilterHistory.Majority; decide)
  revert this; decide

/-- Non-vacuity of `C32_fast_merge_partial`'s last clause. -/
example : let h : FilterHistory := .merge (.addMany .new [.Soil, .Soil]) (.addMany .new [.Soil, .Stone])
    h.solids.length + h.merges < 2 * h.solids.count .Soil := by decide

/-! ### Precise filter -/

theorem precise_addMany (f : FilterPrecise) (ms : List Material) (m : Material)
    (hb : f.counts m + ms.length < 4294967296) :
    (f.addMany ms).counts m = f.counts m + ms.count m := by
  induction ms generalizing f with
  | nil => simp [FilterPrecise.addMany]
  | cons x ms ih =>
    simp only [List.length_cons] at hb
    have hx : (f.add x).counts m = f.counts m + if x = m then 1 else 0 := by
      unfold FilterPrecise.add
      by_cases e : x = m
      · subst e; simp [u32]; omega
      · have e' : ¬ m = x := fun x => e x.symm
        simp [e, e']
    have : (f.addMany (x :: ms)) = (f.add x).addMany ms := rfl
    rw [this, ih _ (by rw [hx]; split <;> omega), hx, List.count_cons]
    by_cases e : x = m <;> simp [e] <;> omega

theorem precise_counts (h : FilterHistory) (hb : h.volume < 4294967296) (m : Material) :
    h.precise.counts m = h.inputs.count m := by
  induction h with
  | new => rfl
  | add h x ih =>
    simp only [volume] at hb
    have i := ih (by omega)
    have c := List.count_le_length (l := h.inputs) (a := m)
    have l := h.inputs_le
    have := precise_addMany h.precise [x] m (by simp; omega)
    simp only [precise, inputs, List.count_append]
    rw [← i]; exact this
  | addMany h ms ih =>
    simp only [volume] at hb
    have i := ih (by omega)
    have c := List.count_le_length (l := h.inputs) (a := m)
    have l := h.inputs_le
    simp only [precise, inputs, List.count_append]
    rw [← i]; exact precise_addMany h.precise ms m (by omega)
  | merge h g ih1 ih2 =>
    simp only [volume] at hb
    have i1 := ih1 (by omega)
    have i2 := ih2 (by omega)
    have c1 := List.count_le_length (l := h.inputs) (a := m)
    have c2 := List.count_le_length (l := g.inputs) (a := m)
    have l1 := h.inputs_le
    have l2 := g.inputs_le
    simp only [precise, inputs, List.count_append, FilterPrecise.merge, i1, i2]
    unfold u32; omega
  | reset h ih => rfl

/-- C33.  For any history of additions, merges and resets (fewer than 2^32 inputs), the precise filter
selects `Empty` iff nothing non-`Empty` went in, and otherwise a non-`Empty` material which went in at
least as often as every other non-`Empty` one. -/
theorem C33_precise_filter (h : FilterHistory) (hb : h.volume < 4294967296) :
    (h.precise.select = .Empty ↔ h.solids = []) ∧
    (h.solids ≠ [] → h.precise.select ∈ h.solids ∧
      ∀ m, m ≠ .Empty → h.inputs.count m ≤ h.inputs.count h.precise.select) := by
  have hc := precise_counts h hb
  have hmem : ∀ m, m ≠ .Empty → (m ∈ h.solids ↔ 0 < h.inputs.count m) := by
    intro m hm
    rw [List.count_pos_iff]; simp [FilterHistory.solids, hm]
  obtain ⟨it, hit, hne, hmax⟩ : ∃ it, FilterPrecise.maxElement h.precise.counts .Solid [.Stone, .Soil] = it ∧
      it ≠ .Empty ∧ ∀ m, m ≠ .Empty → h.precise.counts m ≤ h.precise.counts it := by
    refine ⟨_, rfl, ?_, ?_⟩
    · simp only [FilterPrecise.maxElement]; split <;> split <;> simp
    · intro m hm
      simp only [FilterPrecise.maxElement]
      cases m
      · exact absurd rfl hm
      all_goals (split <;> split <;> omega)
  have hsel : h.precise.select = if h.precise.counts it = 0 then .Empty else it := by
    unfold FilterPrecise.select; rw [hit]
  have hsol : h.solids = [] ↔ h.precise.counts it = 0 := by
    constructor
    · intro e
      by_contra h0
      have := (hmem it hne).2 (by rw [← hc]; omega)
      rw [e] at this; cases this
    · intro e
      rw [List.eq_nil_iff_forall_not_mem]
      intro m hm
      have hmE : m ≠ .Empty := by
        simp [FilterHistory.solids] at hm; exact hm.2
      have := (hmem m hmE).1 hm
      have := hmax m hmE
      rw [hc] at this; omega
  refine ⟨?_, ?_⟩
  · rw [hsol, hsel]
    split
    · simp_all
    · simp_all
  · intro e
    have h0 : h.precise.counts it ≠ 0 := fun e' => e (hsol.2 e')
    rw [hsel, if_neg h0]
    refine ⟨(hmem it hne).2 (by rw [← hc]; omega), fun m hm => ?_⟩
    rw [← hc, ← hc]; exact hmax m hm

/-- The number of a material: its value in `enum class Material`. -/
def Spec.materialNumber : Material → Nat
  | .Empty => 0 | .Solid => 1 | .Stone => 2 | .Soil => 3

/-- C33, ties.  If several non-`Empty` materials went in equally often, the one with the least number is
selected: the choice depends only on how often each material went in, not on the order of the calls. -/
theorem C33_ties (h : FilterHistory) (hb : h.volume < 4294967296) (m : Material) (hm : m ∈ h.solids)
    (heq : h.inputs.count m = h.inputs.count h.precise.select) :
    Spec.materialNumber h.precise.select ≤ Spec.materialNumber m := by
  have hc := precise_counts h hb
  rw [← hc, ← hc] at heq
  have hmE : m ≠ .Empty := by simp [FilterHistory.solids] at hm; exact hm.2
  revert heq
  unfold FilterPrecise.select
  simp only [FilterPrecise.maxElement]
  cases m
  · exact absurd rfl hmE
  all_goals (split_ifs <;> intro heq <;> simp only [Spec.materialNumber] <;> omega)

/-- C33, order of calls.  Two histories in which each material went in equally often select the same. -/
theorem C33_order (h g : FilterHistory) (hb : h.volume < 4294967296) (gb : g.volume < 4294967296)
    (heq : ∀ m, m ≠ .Empty → h.inputs.count m = g.inputs.count m) : h.precise.select = g.precise.select := by
  have hc := precise_counts h hb
  have gc := precise_counts g gb
  have e1 : h.precise.counts .Solid = g.precise.counts .Solid := by rw [hc, gc]; exact heq _ (by decide)
  have e2 : h.precise.counts .Stone = g.precise.counts .Stone := by rw [hc, gc]; exact heq _ (by decide)
  have e3 : h.precise.counts .Soil = g.precise.counts .Soil := by rw [hc, gc]; exact heq _ (by decide)
  unfold FilterPrecise.select
  simp only [FilterPrecise.maxElement, e1, e2, e3]
  split_ifs <;> simp_all

/-- The tie rule on a concrete history: `Soil` and `Stone` twice each, `Stone` wins. -/
example : (FilterHistory.addMany .new [.Soil, .Stone, .Soil, .Stone]).precise.select = .Stone := by decide

/-- Non-vacuity of C33. -/
example : (FilterHistory.merge (.addMany .new [.Soil, .Stone]) (.add .new .Stone)).precise.select = .Stone := by
  decide

end Isomesh
