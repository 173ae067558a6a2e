import Verif.Props.Filled

/-! C07: the endpoints reported by an edge record. -/

namespace Isomesh
open Spec

variable {K : Type} [Field K] [LinearOrder K] [IsStrictOrderedRing K]

/-- C07: the two endpoints reported for a stored edge are the ends of a unit edge of the grid, one of them has a value above zero
and the other does not, and the flag tells which. -/
theorem C07_endpoints {g g' : Grid K} (hg : g.Reachable) {f : ScalarField K} {sv : ZeroFinder K}
    (h : g.fill f sv = some g') {D : Axis} {e : GridEdge K} (he : e ∈ g'.edges D) :
    edgeVertices D e.lesserEndpoint = [e.lesserEndpoint, e.biggerEndpoint] ∧
    InCube g.maxCoord e.lesserEndpoint ∧ InCube g.maxCoord e.biggerEndpoint ∧
    (e.lesserSolid = true ↔ f.value (worldPos g.globalPos g.step e.lesserEndpoint) ≤ 0) ∧
    (e.lesserSolid = true ↔ ¬ f.value (worldPos g.globalPos g.step e.biggerEndpoint) ≤ 0) := by
  obtain ⟨p, hp, hc, rfl⟩ := ((C07_fill_edges hg h D).1 e).1 he
  have hb : (edgeRecord f sv (worldPos g.globalPos g.step) g.step D p).biggerEndpoint = edgeEnd D p := by
    cases D <;> simp [GridEdge.biggerEndpoint, edgeRecord, edgeEnd, shift]
  have hl : (edgeRecord f sv (worldPos g.globalPos g.step) g.step D p).lesserEndpoint = p := rfl
  have hs : (edgeRecord f sv (worldPos g.globalPos g.step) g.step D p).lesserSolid =
      decide (f.value (worldPos g.globalPos g.step p) ≤ 0) := rfl
  have hv : edgeVertices D p = [p, edgeEnd D p] := by cases D <;> rfl
  rw [hb, hl, hs, hv, decide_eq_true_iff]
  rw [hv] at hp
  unfold Crosses at hc
  exact ⟨rfl, hp _ (by simp), hp _ (by simp), Iff.rfl, by tauto⟩

/-- Non-vacuity: the demo grid filled with the demo field has an edge along x. -/
example : ∃ g' e, demoGrid.fill demoField demoSolver = some g' ∧ e ∈ g'.edges .X := by
  obtain ⟨g', e, -⟩ := C06_fill_materials demoGrid_reachable demoField demoSolver
  refine ⟨g', _, e, ((C07_fill_edges demoGrid_reachable e .X).1 _).2 ⟨⟨0, 1, 0⟩, by decide, ?_, rfl⟩⟩
  norm_num [Crosses, demoField, worldPos, demoGrid, edgeEnd, shift]

end Isomesh
