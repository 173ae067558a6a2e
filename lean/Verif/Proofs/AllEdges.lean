import Verif.Proofs.FillEdges
import Verif.Proofs.EdgeStorage

/-! Membership and order of the edge lists produced by `fill`. -/

set_option linter.unusedSectionVars false

namespace Isomesh
open Spec

variable {K : Type} [Field K] [LinearOrder K] [IsStrictOrderedRing K]

/-- In-grid edge, by its endpoints. -/
def EdgeIn (h : Int) (D : Axis) (p : IVec3) : Prop := InCube h p ∧ InCube h (edgeEnd D p)

/-! ### Any arithmetic -/

section Any
variable {K : Type} [Add K] [Sub K] [Mul K] [Div K] [Zero K] [IntCast K] [LE K] [LT K] [DecidableLE K] [DecidableLT K]

theorem mem_edgeOutR {g : Grid K} {f : ScalarField K} {sv : ZeroFinder K} {D : Axis} {p : IVec3} {e : GridEdge K} :
    e ∈ edgeOutR g f sv D p ↔ Crosses f g.spos D p ∧ e = sampledRecord f sv g.spos g.gpos g.step D p := by
  unfold edgeOutR
  split_ifs with h <;> simp [h]

theorem mem_allEdgesR {g : Grid K} {f : ScalarField K} {sv : ZeroFinder K} {D : Axis} {e : GridEdge K} :
    e ∈ allEdgesR g f sv D ↔
      ∃ p, EdgeIn g.half D p ∧ Crosses f g.spos D p ∧ e = sampledRecord f sv g.spos g.gpos g.step D p := by
  unfold allEdgesR rowYR rowXR rowZR
  simp only [List.mem_flatMap, mem_irange, mem_edgeOutR]
  constructor
  · rintro ⟨y, hy, x, hx, z, hz, h⟩
    refine ⟨⟨x, y, z⟩, ?_, h⟩
    cases D <;> simp only [hiX, hiY, hiZ] at hx hy hz <;>
      (simp only [EdgeIn, InCube, edgeEnd, shift]; omega)
  · rintro ⟨⟨x, y, z⟩, hin, h⟩
    refine ⟨y, ?_, x, ?_, z, ?_, h⟩ <;>
      cases D <;> simp only [EdgeIn, InCube, edgeEnd, shift] at hin <;> simp only [hiX, hiY, hiZ] <;> omega

theorem sampledRecord_lesser {f : ScalarField K} {sv : ZeroFinder K} {sample pos step} {D : Axis} {p : IVec3} :
    (sampledRecord f sv sample pos step D p).lesser = p := rfl

theorem allEdgesR_sorted (g : Grid K) (f : ScalarField K) (sv : ZeroFinder K) (D : Axis) :
    (allEdgesR g f sv D).Pairwise (fun a b => LexYXZ a.lesser b.lesser) := by
  unfold allEdgesR rowYR rowXR rowZR
  rw [List.pairwise_flatMap]
  constructor
  · intro y _
    rw [List.pairwise_flatMap]
    constructor
    · intro x _
      rw [List.pairwise_flatMap]
      constructor
      · intro z _
        unfold edgeOutR
        split_ifs <;> simp
      · refine (irange_pairwise _ _).imp ?_
        intro z z' hz a ha b hb
        rw [mem_edgeOutR] at ha hb
        rw [ha.2, hb.2, sampledRecord_lesser, sampledRecord_lesser]
        exact Or.inr ⟨rfl, Or.inr ⟨rfl, hz⟩⟩
    · refine (irange_pairwise _ _).imp ?_
      intro x x' hx a ha b hb
      rw [List.mem_flatMap] at ha hb
      obtain ⟨z, _, ha⟩ := ha
      obtain ⟨z', _, hb⟩ := hb
      rw [mem_edgeOutR] at ha hb
      rw [ha.2, hb.2, sampledRecord_lesser, sampledRecord_lesser]
      exact Or.inr ⟨rfl, Or.inl hx⟩
  · refine (irange_pairwise _ _).imp ?_
    intro y y' hy a ha b hb
    simp only [List.mem_flatMap] at ha hb
    obtain ⟨x, _, z, _, ha⟩ := ha
    obtain ⟨x', _, z', _, hb⟩ := hb
    rw [mem_edgeOutR] at ha hb
    rw [ha.2, hb.2, sampledRecord_lesser, sampledRecord_lesser]
    exact Or.inl hy

end Any

/-! ### Exact arithmetic -/

theorem mem_edgeOut {g : Grid K} {f : ScalarField K} {sv : ZeroFinder K} {D : Axis} {p : IVec3} {e : GridEdge K} :
    e ∈ edgeOut g f sv D p ↔ Crosses f g.gpos D p ∧ e = edgeRecord f sv g.gpos g.step D p := by
  unfold edgeOut
  split_ifs with h <;> simp [h]

theorem mem_allEdges {g : Grid K} {f : ScalarField K} {sv : ZeroFinder K} {D : Axis} {e : GridEdge K} :
    e ∈ allEdges g f sv D ↔
      ∃ p, EdgeIn g.half D p ∧ Crosses f g.gpos D p ∧ e = edgeRecord f sv g.gpos g.step D p := by
  unfold allEdges
  simp only [List.mem_flatMap, mem_irange, mem_edgeOut]
  constructor
  · rintro ⟨y, hy, x, hx, z, hz, h⟩
    refine ⟨⟨x, y, z⟩, ?_, h⟩
    cases D <;> simp only [hiX, hiY, hiZ] at hx hy hz <;>
      (simp only [EdgeIn, InCube, edgeEnd, shift]; omega)
  · rintro ⟨⟨x, y, z⟩, hin, h⟩
    refine ⟨y, ?_, x, ?_, z, ?_, h⟩ <;>
      cases D <;> simp only [EdgeIn, InCube, edgeEnd, shift] at hin <;> simp only [hiX, hiY, hiZ] <;> omega

theorem edgeRecord_lesser {f : ScalarField K} {sv : ZeroFinder K} {pos step} {D : Axis} {p : IVec3} :
    (edgeRecord f sv pos step D p).lesser = p := rfl

theorem allEdges_sorted (g : Grid K) (f : ScalarField K) (sv : ZeroFinder K) (D : Axis) :
    (allEdges g f sv D).Pairwise (fun a b => LexYXZ a.lesser b.lesser) := by
  unfold allEdges
  rw [List.pairwise_flatMap]
  constructor
  · intro y _
    rw [List.pairwise_flatMap]
    constructor
    · intro x _
      rw [List.pairwise_flatMap]
      constructor
      · intro z _
        unfold edgeOut
        split_ifs <;> simp
      · refine (irange_pairwise _ _).imp ?_
        intro z z' hz a ha b hb
        rw [mem_edgeOut] at ha hb
        rw [ha.2, hb.2, edgeRecord_lesser, edgeRecord_lesser]
        exact Or.inr ⟨rfl, Or.inr ⟨rfl, hz⟩⟩
    · refine (irange_pairwise _ _).imp ?_
      intro x x' hx a ha b hb
      rw [List.mem_flatMap] at ha hb
      obtain ⟨z, _, ha⟩ := ha
      obtain ⟨z', _, hb⟩ := hb
      rw [mem_edgeOut] at ha hb
      rw [ha.2, hb.2, edgeRecord_lesser, edgeRecord_lesser]
      exact Or.inr ⟨rfl, Or.inl hx⟩
  · refine (irange_pairwise _ _).imp ?_
    intro y y' hy a ha b hb
    simp only [List.mem_flatMap] at ha hb
    obtain ⟨x, _, z, _, ha⟩ := ha
    obtain ⟨x', _, z', _, hb⟩ := hb
    rw [mem_edgeOut] at ha hb
    rw [ha.2, hb.2, edgeRecord_lesser, edgeRecord_lesser]
    exact Or.inl hy

end Isomesh
