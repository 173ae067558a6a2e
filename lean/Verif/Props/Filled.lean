import Verif.Props.Grid
import Verif.Spec.Filled
import Mathlib.Data.List.Perm.Subperm

/-! C07, continued: `fill` leaves a consistent grid, and facts about consistent grids used by the meshing proofs. -/

set_option linter.unusedSectionVars false

namespace Isomesh
open Spec

variable {K : Type} [Add K] [Sub K] [Mul K] [Div K] [Zero K] [IntCast K] [LE K] [LT K] [DecidableLE K] [DecidableLT K]

theorem edgeVertices_iff {h : Int} {D : Axis} {p : IVec3} :
    (∀ v ∈ edgeVertices D p, InCube h v) ↔ InCube h p ∧ InCube h (edgeEnd D p) := by
  cases D <;> simp [edgeVertices, edgeEnd]

/-- C85 (consistency).  Whatever happened to the grid before, `fill` with a field that never reports `Empty` for a non-positive
value leaves materials and edge storages consistent, provided the value at every grid point is a number (not NaN).  Nothing is
assumed about arithmetic and comparisons; elsewhere the field, its gradient and the zero finder may return anything. -/
theorem C85_filled {g g' : Grid K} (hg : g.Reachable) {f : ScalarField K} {sv : ZeroFinder K} (hf : ProperField f)
    (hcmp : ∀ p, InCube g.maxCoord p → NotNaN (f.value (samplePos g.globalPos g.step g.maxCoord p)))
    (h : g.fill f sv = some g') : Filled g' := by
  obtain ⟨g'', e, ⟨hs, hh, hp, ht⟩, hmat⟩ := C73_fill_materials hg f sv
  rw [h] at e; cases e
  have hmax : g'.maxCoord = g.maxCoord := hh
  have hsolid : ∀ p, InCube g.maxCoord p →
      solidAt g' p = decide (f.value (samplePos g.globalPos g.step g.maxCoord p) ≤ 0) := by
    intro p hp
    unfold solidAt
    rw [hmat p hp]
    unfold vertexMaterial
    have hn := hcmp p hp
    by_cases hv : f.value (samplePos g.globalPos g.step g.maxCoord p) ≤ 0
    · rw [if_neg (fun x => (hn.1 x) hv)]; simp [hv, hf _ hv]
    · rw [if_pos (hn.2 hv)]; simp [hv]
  have hedges := fun D => (C73_fill_edges hg h D).1
  have hcr : ∀ D p, (∀ v ∈ edgeVertices D p, InCube g.maxCoord v) →
      (solidAt g' p ≠ solidAt g' (edgeEnd D p) ↔ Crosses f (samplePos g.globalPos g.step g.maxCoord) D p) := by
    intro D p hin
    rw [edgeVertices_iff] at hin
    rw [hsolid _ hin.1, hsolid _ hin.2]
    unfold Crosses
    simp only [ne_eq, decide_eq_decide]
  refine ⟨(Grid.Reachable.fill hg h).wf, ?_, ?_, ?_, ?_, ?_, ?_⟩
  · intro p hp; exact ⟨_, hmat p (by rwa [hmax] at hp)⟩
  · intro D p
    unfold CrossingEdge
    rw [hmax]
    constructor
    · rintro ⟨e, he, rfl⟩
      obtain ⟨p, h1, h2, rfl⟩ := (hedges D e).1 he
      exact ⟨h1, (hcr D p h1).2 h2⟩
    · rintro ⟨h1, h2⟩
      exact ⟨_, (hedges D _).2 ⟨p, h1, (hcr D p h1).1 h2, rfl⟩, rfl⟩
  · intro D e he
    obtain ⟨p, h1, h2, rfl⟩ := (hedges D e).1 he
    rfl
  · intro D e he
    obtain ⟨p, h1, h2, rfl⟩ := (hedges D e).1 he
    rw [sampledRecord_lesser, hsolid _ (edgeVertices_iff.1 h1).1]
    rfl
  · intro D e he
    obtain ⟨p, h1, h2, rfl⟩ := (hedges D e).1 he
    have h1' := edgeVertices_iff.1 h1
    unfold sampledRecord
    by_cases hv : f.value (samplePos g.globalPos g.step g.maxCoord p) ≤ 0
    · simp only [hv, decide_true, if_true]; exact hmat _ h1'.1
    · simp only [hv, decide_false, if_false]; exact hmat _ h1'.2
  · intro D
    obtain ⟨g'', e, _, _, _, _, _, _, h7⟩ := fillR_spec hg.wf f sv
    rw [h] at e; cases e
    rw [h7 D]
    exact allEdgesR_sorted g f sv D

/-- C07: whatever happened to the grid before, `fill` with a field that never reports `Empty` for a non-positive value
leaves materials and edge storages consistent.  Nothing is assumed about the arithmetic operations: this holds for rounded
arithmetic too. -/
theorem C07_filled {K : Type} [Add K] [Sub K] [Mul K] [Div K] [Zero K] [IntCast K] [LinearOrder K] {g g' : Grid K} (hg : g.Reachable)
    {f : ScalarField K} {sv : ZeroFinder K} (hf : ProperField f) (h : g.fill f sv = some g') : Filled g' :=
  C85_filled hg hf (fun _ _ => not_le.symm) h

/-- Non-vacuity: the demo grid filled with the demo field is consistent. -/
theorem demo_filled : ∃ g', demoGrid.fill demoField demoSolver = some g' ∧ Filled g' := by
  obtain ⟨g', e, -⟩ := C06_fill_materials demoGrid_reachable demoField demoSolver
  exact ⟨g', e, C07_filled demoGrid_reachable (by intro q _; show Material.Stone ≠ Material.Empty; decide) e⟩

/-! ### Facts about consistent grids -/

theorem Spec.Filled.crossing {g : Grid K} (h : Filled g) {D : Axis} {e : GridEdge K} (he : e ∈ g.edges D) :
    CrossingEdge g D e.lesser := (h.edge_iff D _).1 ⟨e, he, rfl⟩

theorem Spec.Filled.stored {g : Grid K} (h : Filled g) : Stored g :=
  ⟨h.wf, h.written, fun _ _ he => (h.crossing he).1, h.edge_axis, h.sorted⟩

theorem Spec.Stored.mem_edgeList {g : Grid K} (h : Stored g) {e : GridEdge K} : e ∈ edgeList g ↔ e ∈ g.edges e.axis := by
  unfold edgeList
  simp only [List.mem_append]
  constructor
  · rintro ((h' | h') | h') <;> (have := h.edge_axis _ _ h'; rw [this]; exact h')
  · intro h'
    cases ha : e.axis <;> rw [ha] at h'
    · exact Or.inl (Or.inl h')
    · exact Or.inl (Or.inr h')
    · exact Or.inr h'

theorem mem_edgeList {g : Grid K} (h : Filled g) {e : GridEdge K} : e ∈ edgeList g ↔ e ∈ g.edges e.axis :=
  Stored.mem_edgeList h.stored

/-- Different list positions hold different lattice edges. -/
theorem Spec.Stored.edgeList_nodup {g : Grid K} (h : Stored g) :
    (edgeList g).Pairwise (fun a b => LEdge.ofGridEdge a ≠ LEdge.ofGridEdge b) := by
  have hD : ∀ D, (g.edges D).Pairwise (fun a b => LEdge.ofGridEdge a ≠ LEdge.ofGridEdge b) := by
    intro D
    refine (h.sorted D).imp ?_
    intro a b hab he
    simp only [LEdge.ofGridEdge, LEdge.mk.injEq] at he
    rw [he.2] at hab
    exact LexYXZ.irrefl _ hab
  have hne : ∀ D D' a b, D ≠ D' → a ∈ g.edges D → b ∈ g.edges D' → LEdge.ofGridEdge a ≠ LEdge.ofGridEdge b := by
    intro D D' a b hd ha hb he
    simp only [LEdge.ofGridEdge, LEdge.mk.injEq] at he
    rw [h.edge_axis _ _ ha, h.edge_axis _ _ hb] at he
    exact hd he.1
  unfold edgeList
  rw [List.pairwise_append, List.pairwise_append]
  refine ⟨⟨hD _, hD _, ?_⟩, hD _, ?_⟩
  · intro a ha b hb; exact hne _ _ a b (by decide) ha hb
  · intro a ha b hb
    rcases List.mem_append.1 ha with ha | ha
    · exact hne _ _ a b (by decide) ha hb
    · exact hne _ _ a b (by decide) ha hb

theorem edgeList_nodup {g : Grid K} (h : Filled g) :
    (edgeList g).Pairwise (fun a b => LEdge.ofGridEdge a ≠ LEdge.ofGridEdge b) :=
  Stored.edgeList_nodup h.stored

/-- There are fewer edges along an axis than vertices. -/
theorem Spec.Stored.edges_length_le {g : Grid K} (h : Stored g) (D : Axis) : (g.edges D).length ≤ g.dataSize := by
  have hin : ∀ e ∈ g.edges D, InCube g.half e.lesser := fun e he => (edgeVertices_iff.1 (h.edge_in _ _ he)).1
  have hp : ((g.edges D).map (fun e => g.vidx e.lesser)).Pairwise (· < ·) := by
    rw [List.pairwise_map]
    refine List.Pairwise.imp_of_mem ?_ (h.sorted D)
    intro a b ha hb hab
    exact (Grid.vidx_lt_iff h.wf (hin a ha) (hin b hb)).2 hab
  have hsub : ((g.edges D).map (fun e => g.vidx e.lesser)).Subperm (List.range g.dataSize) := by
    refine List.subperm_of_subset (hp.imp (fun h => Nat.ne_of_lt h)) ?_
    intro i hi
    obtain ⟨e, he, rfl⟩ := List.mem_map.1 hi
    exact List.mem_range.2 (Grid.vidx_lt' h.wf (hin e he))
  simpa using hsub.length_le

theorem edges_length_le {g : Grid K} (h : Filled g) (D : Axis) : (g.edges D).length ≤ g.dataSize :=
  Stored.edges_length_le h.stored D

/-- All edges together are fewer than 2^32 - 1. -/
theorem Spec.Stored.edgeList_length {g : Grid K} (h : Stored g) : (edgeList g).length < 4294967295 := by
  have hx := Stored.edges_length_le h .X
  have hy := Stored.edges_length_le h .Y
  have hz := Stored.edges_length_le h .Z
  have hd : g.dataSize ≤ 1025 * 1025 * 1025 := by
    rw [Grid.dataSize, dataSizeOf_eq h.wf.le]
    have := h.wf.le
    have h1 : g.size + 1 ≤ 1025 := by omega
    exact Nat.mul_le_mul (Nat.mul_le_mul h1 h1) h1
  simp only [edgeList, List.length_append]
  omega

theorem edgeList_length {g : Grid K} (h : Filled g) : (edgeList g).length < 4294967295 :=
  Stored.edgeList_length h.stored

end Isomesh
