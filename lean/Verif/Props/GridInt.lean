import Verif.Model.GridInt
import Verif.Props.Grid

/-! C101: the grid predicates on 32 bit coordinates. -/

namespace Isomesh
open Spec

section
variable {K : Type} [Add K] [Sub K] [Mul K] [Div K] [Zero K] [IntCast K] [LE K] [LT K] [DecidableLE K] [DecidableLT K]

/-- The coordinate of a point that has a negation among the 32 bit numbers. -/
def HasNeg (x : Int) : Prop := -2147483648 < x ∧ x ≤ 2147483647

theorem wrapAbs_eq {x : Int} (h : HasNeg x) : wrapAbs x = |x| := if_neg (by unfold HasNeg at h; omega)

/-- C101 (agreement): for all 32 bit coordinates other than -2^31 no predicate overflows: each answers what the geometry says. -/
theorem C101_inGrid (g : Grid K) {p : IVec3} (hx : HasNeg p.x) (hy : HasNeg p.y) (hz : HasNeg p.z) :
    (g.isVertexInGrid32 p = true ↔ InCube g.maxCoord p) ∧
    (∀ D, g.isEdgeInGrid32 D p = true ↔ ∀ v ∈ edgeVertices D p, InCube g.maxCoord v) ∧
    (∀ D, g.isFaceInGrid32 D p = true ↔ ∀ v ∈ faceVertices D p, InCube g.maxCoord v) := by
  obtain ⟨h1, h2, h3, -⟩ := C03_inGrid g p
  have e1 : g.isVertexInGrid32 p = g.isVertexInGrid p := by
    simp only [Grid.isVertexInGrid32, Grid.isVertexInGrid, wrapAbs_eq hx, wrapAbs_eq hy, wrapAbs_eq hz]
  have e2 : ∀ D, g.isEdgeInGrid32 D p = g.isEdgeInGrid D p := by
    intro D
    cases D <;> simp only [Grid.isEdgeInGrid32, Grid.isEdgeInGrid, wrapAbs_eq hx, wrapAbs_eq hy, wrapAbs_eq hz]
  have e3 : ∀ D, g.isFaceInGrid32 D p = g.isFaceInGrid D p := by
    intro D
    cases D <;> simp only [Grid.isFaceInGrid32, Grid.isFaceInGrid, wrapAbs_eq hx, wrapAbs_eq hy, wrapAbs_eq hz]
  refine ⟨e1 ▸ h1, fun D => e2 D ▸ h2 D, fun D => e3 D ▸ h3 D⟩

/-- C101 (agreement on the border). -/
theorem C101_onBorder {g : Grid K} (hg : g.Reachable) (p : IVec3) :
    (InCube g.maxCoord p → (g.isVertexOnBorder32 p = true ↔ ∃ c ∈ cellsAroundVertex p, ¬ CellIn g.maxCoord c)) ∧
    (∀ D, (∀ v ∈ edgeVertices D p, InCube g.maxCoord v) →
      (g.isEdgeOnBorder32 D p = true ↔ ∃ c ∈ cellsAroundEdge D p, ¬ CellIn g.maxCoord c)) ∧
    (∀ D, (∀ v ∈ faceVertices D p, InCube g.maxCoord v) →
      (g.isFaceOnBorder32 D p = true ↔ ∃ c ∈ cellsAroundFace D p, ¬ CellIn g.maxCoord c)) := by
  obtain ⟨h1, h2, h3, -⟩ := C03_onBorder hg p
  have hn : InCube g.maxCoord p → HasNeg p.x ∧ HasNeg p.y ∧ HasNeg p.z := by
    have a := hg.wf.le
    have b := hg.wf.half_eq
    unfold InCube Grid.maxCoord HasNeg
    omega
  refine ⟨fun h => ?_, fun D h => ?_, fun D h => ?_⟩
  · obtain ⟨hx, hy, hz⟩ := hn h
    rw [← h1 h]
    simp only [Grid.isVertexOnBorder32, Grid.isVertexOnBorder, wrapAbs_eq hx, wrapAbs_eq hy, wrapAbs_eq hz]
  · obtain ⟨hx, hy, hz⟩ := hn (h p (by cases D <;> simp [edgeVertices]))
    rw [← h2 D h]
    cases D <;> simp only [Grid.isEdgeOnBorder32, Grid.isEdgeOnBorder, wrapAbs_eq hx, wrapAbs_eq hy, wrapAbs_eq hz]
  · obtain ⟨hx, hy, hz⟩ := hn (h p (by cases D <;> simp [faceVertices]))
    rw [← h3 D h]
    cases D <;> simp only [Grid.isFaceOnBorder32, Grid.isFaceOnBorder, wrapAbs_eq hx, wrapAbs_eq hy, wrapAbs_eq hz]

/-- C101 (the exception): where the absolute value wraps around, the predicate takes the coordinate -2^31 for one inside of the grid. -/
theorem C101_min {g : Grid K} (hg : g.Reachable) (p : IVec3) :
    g.isVertexInGrid32 p = true ↔ ∀ c ∈ [p.x, p.y, p.z], c = -2147483648 ∨ -g.maxCoord ≤ c ∧ c ≤ g.maxCoord := by
  have b := hg.wf.half_eq
  have key : ∀ x : Int, ¬ wrapAbs x > g.half ↔ (x = -2147483648 ∨ -g.half ≤ x ∧ x ≤ g.half) := by
    intro x
    unfold wrapAbs
    by_cases h : x = -2147483648
    · simp only [h, if_true, true_or, iff_true]; omega
    · rw [if_neg h, not_lt, abs_le]; simp [h]
  simp only [List.mem_cons, List.not_mem_nil, or_false, forall_eq_or_imp, forall_eq, Grid.maxCoord, ← key]
  unfold Grid.isVertexInGrid32
  by_cases h1 : wrapAbs p.x > g.half
  · simp [h1]
  · by_cases h2 : wrapAbs p.y > g.half
    · simp [h1, h2]
    · by_cases h3 : wrapAbs p.z > g.half
      · simp [h1, h2, h3]
      · simp [h1, h2, h3]

/-- C101 (consequence): for such a point the assertion of the element access passes, and the access is outside of the array. -/
theorem C101_min_access {g : Grid K} (hg : g.Reachable) {x y : Int} (hx : -g.maxCoord ≤ x ∧ x ≤ g.maxCoord) (hy : -g.maxCoord ≤ y ∧ y ≤ g.maxCoord) :
    ∃ i, g.pointToIndex32 ⟨x, y, -2147483648⟩ = some i ∧ dataSizeOf g.size ≤ i := by
  have hin : g.isVertexInGrid32 ⟨x, y, -2147483648⟩ = true := by
    rw [C101_min hg]
    simp only [List.mem_cons, List.not_mem_nil, or_false, forall_eq_or_imp, forall_eq]
    exact ⟨Or.inr hx, Or.inr hy, Or.inl trivial⟩
  have b := hg.wf.half_eq
  have a := hg.wf.le
  have t := hg.wf.two_le
  unfold Grid.maxCoord at hx hy
  unfold Grid.pointToIndex32
  rw [if_pos hin]
  refine ⟨_, rfl, ?_⟩
  dsimp only
  obtain ⟨n, hn⟩ : ∃ n : Nat, n = g.size + 1 := ⟨_, rfl⟩
  have hyn : ∃ u : Nat, (u : Int) = y + g.half ∧ u < n := ⟨(y + g.half).toNat, by omega, by omega⟩
  have hxn : ∃ v : Nat, (v : Int) = x + g.half ∧ v < n := ⟨(x + g.half).toNat, by omega, by omega⟩
  obtain ⟨u, hu, hu'⟩ := hyn
  obtain ⟨v, hv, hv'⟩ := hxn
  have hn1 : n ≤ 1025 := by omega
  have m1 : u * n + v < n * n := by nlinarith
  have m2 : n * n ≤ 1050625 := by nlinarith
  have m3 : (u * n + v) * n ≤ 1076890625 := by nlinarith
  have m4 : n * n * n ≤ 1076890625 := by nlinarith
  have e1 : toU32 (y + g.half) = u := by unfold toU32; omega
  have e2 : toU32 (x + g.half) = v := by unfold toU32; omega
  have e3 : toU32 (-2147483648 + g.half) = 2147483648 + g.half.toNat := by unfold toU32; omega
  have e4 : u32 n = n := by unfold u32; omega
  have e5 : u32 (u * n) = u * n := by unfold u32; omega
  have e6 : u32 (u * n + v) = u * n + v := by unfold u32; omega
  have e7 : u32 ((u * n + v) * n) = (u * n + v) * n := by unfold u32; omega
  have e8 : u32 (n * n) = n * n := by unfold u32; omega
  have e9 : u32 (n * n * n) = n * n * n := by unfold u32; omega
  have e10 : u32 ((u * n + v) * n + (2147483648 + g.half.toNat)) = (u * n + v) * n + (2147483648 + g.half.toNat) := by unfold u32; omega
  rw [dataSizeOf, ← hn, e1, e2, e3, e4, e5, e6, e7, e8, e9, e10]
  omega

end

/-- Non-vacuity. -/
example : HasNeg 2147483647 ∧ HasNeg (-5) ∧ demoGrid.isVertexInGrid32 ⟨1, -1, 0⟩ = true ∧ demoGrid.isVertexInGrid32 ⟨1, -2, 0⟩ = false ∧
    demoGrid.isVertexInGrid32 ⟨1, -2147483648, 0⟩ = true ∧ ¬ InCube demoGrid.maxCoord ⟨1, -2147483648, 0⟩ := by
  unfold HasNeg; decide

end Isomesh
