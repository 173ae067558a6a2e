import Verif.Proofs.AllEdges
import Mathlib.Algebra.Order.Ring.Rat

/-! Properties C01–C10 and C56: the uniform grid. -/

set_option linter.unusedSectionVars false

namespace Isomesh
open Spec

/-! ### C01 -/

/-- C01: the constructor succeeds exactly for the powers of two in [2, 1024]. -/
theorem C01_ctor_accepts {K : Type} (size : Nat) (pos : Vec3 K) (step : K) :
    (∃ g, Grid.mk' size pos step = .ok g) ↔ (∃ k : Nat, size = 2 ^ k) ∧ 2 ≤ size ∧ size ≤ 1024 := by
  unfold Grid.mk' gridSizeCheck
  by_cases h2 : size < 2
  · simp only [if_pos h2]
    constructor
    · rintro ⟨g, hg⟩; cases hg
    · rintro ⟨_, h, _⟩; omega
  · have hp := and_pred_eq_zero_iff size (by omega)
    simp only [if_neg h2]
    by_cases h3 : size &&& (size - 1) ≠ 0
    · simp only [if_pos h3]
      constructor
      · rintro ⟨g, hg⟩; cases hg
      · rintro ⟨h, _, _⟩; exact absurd (hp.2 h) h3
    · simp only [if_neg h3]
      have h3' := hp.1 (by simpa using h3)
      by_cases h4 : size > 1024
      · simp only [if_pos h4]
        constructor
        · rintro ⟨g, hg⟩; cases hg
        · rintro ⟨_, _, h⟩; omega
      · simp only [if_neg h4]
        constructor
        · intro _; exact ⟨h3', by omega, by omega⟩
        · intro _; exact ⟨_, rfl⟩

/-- C01: which exception is thrown for which rejected size. -/
theorem C01_ctor_rejects {K : Type} (size : Nat) (pos : Vec3 K) (step : K) :
    ((size < 2 ∨ ¬ ∃ k : Nat, size = 2 ^ k) → Grid.mk' size pos step = .error .invalidArgument) ∧
    ((∃ k : Nat, size = 2 ^ k) → 1024 < size → Grid.mk' size pos step = .error .lengthError) := by
  unfold Grid.mk' gridSizeCheck
  constructor
  · intro h
    by_cases h2 : size < 2
    · simp [h2]
    · have hp := and_pred_eq_zero_iff size (by omega)
      have : size &&& (size - 1) ≠ 0 := by
        rcases h with h | h
        · omega
        · rwa [Ne, hp]
      simp [h2, this]
  · intro h h4
    have hp := and_pred_eq_zero_iff size (by omega)
    have : size &&& (size - 1) = 0 := hp.2 h
    have h2 : ¬ size < 2 := by omega
    simp [h2, this, h4]

theorem mk'_wf {K : Type} {size : Nat} {pos : Vec3 K} {step : K} {g : Grid K} (h : Grid.mk' size pos step = .ok g) :
    g.WF := by
  obtain ⟨⟨k, hk⟩, h2, h3⟩ := (C01_ctor_accepts size pos step).1 ⟨g, h⟩
  unfold Grid.mk' at h
  split at h
  · cases h
  · cases h
    have : (size : Int) = 2 * ((size : Int) / 2) := by
      cases k with
      | zero => omega
      | succ k => rw [hk, pow_succ]; push_cast; omega
    exact ⟨h2, h3, this, by simp⟩

/-- C01: `dataSize ()` of a constructed grid is `(size + 1)^3`, without 32-bit wrap-around, and the material array has
that many slots. -/
theorem C01_dataSize {K : Type} {size : Nat} {pos : Vec3 K} {step : K} {g : Grid K}
    (h : Grid.mk' size pos step = .ok g) :
    g.dataSize = (size + 1) ^ 3 ∧ g.dataSize < 2 ^ 32 ∧ g.mat.length = g.dataSize := by
  have hw := mk'_wf h
  have hs : g.size = size := by
    unfold Grid.mk' at h
    split at h
    · cases h
    · cases h; rfl
  have hc := cube_lt hw.le
  have hd : g.dataSize = (g.size + 1) * (g.size + 1) * (g.size + 1) := dataSizeOf_eq hw.le
  refine ⟨?_, ?_, hw.mat_len⟩
  · rw [hd, hs]; ring
  · rw [hd]; omega

/-- Non-vacuity: size 4 is accepted, sizes 0, 6 and 2048 are not. -/
example : (∃ g, Grid.mk' 4 (⟨0, 0, 0⟩ : Vec3 ℚ) 1 = .ok g) ∧
    Grid.mk' 0 (⟨0, 0, 0⟩ : Vec3 ℚ) 1 = .error .invalidArgument ∧
    Grid.mk' 6 (⟨0, 0, 0⟩ : Vec3 ℚ) 1 = .error .invalidArgument ∧
    Grid.mk' 2048 (⟨0, 0, 0⟩ : Vec3 ℚ) 1 = .error .lengthError := ⟨⟨_, rfl⟩, rfl, rfl, rfl⟩

/-! A concrete grid used by the non-vacuity examples. -/

/-- Grid of size 2 at the origin, step 1. -/
def demoGrid : Grid ℚ :=
  { size := 2, half := 1, mat := List.replicate 27 none, edgeX := [], edgeY := [], edgeZ := [],
    globalPos := ⟨0, 0, 0⟩, step := 1 }

theorem demoGrid_mk : Grid.mk' 2 (⟨0, 0, 0⟩ : Vec3 ℚ) 1 = .ok demoGrid := rfl

theorem demoGrid_reachable : demoGrid.Reachable := .mk demoGrid_mk

section
variable {K : Type} [Add K] [Sub K] [Mul K] [Div K] [Zero K] [IntCast K] [LE K] [LT K] [DecidableLE K] [DecidableLT K]

theorem Grid.Reachable.wf {g : Grid K} (h : g.Reachable) : g.WF := by
  induction h with
  | mk h => exact mk'_wf h
  | fill _ h ih => exact fill_wf ih h

/-! ### C02 -/

/-- C02: `pointToIndex` on grid vertices is exact integer arithmetic (no overflow), lands in `[0, dataSize)`, and
`indexToPoint` undoes it. -/
theorem C02_point_index_point {g : Grid K} (hg : g.Reachable) (p : IVec3) (hp : InCube g.maxCoord p) :
    ∃ i, g.pointToIndex p = some i ∧ i < g.dataSize ∧ g.indexToPoint i = some p ∧
      (i : Int) = ((p.y - g.minCoord) * (g.size + 1) + (p.x - g.minCoord)) * (g.size + 1) + (p.z - g.minCoord) := by
  refine ⟨g.vidx p, Grid.pointToIndex_eq hg.wf hp, Grid.vidx_lt' hg.wf hp, Grid.indexToPoint_vidx hg.wf hp, ?_⟩
  rw [Grid.vidx_int hp]
  unfold Grid.minCoord
  ring

/-- C02: every index below `dataSize` is the index of exactly the vertex `indexToPoint` reports. -/
theorem C02_index_point_index {g : Grid K} (hg : g.Reachable) (i : Nat) (hi : i < g.dataSize) :
    ∃ p, InCube g.maxCoord p ∧ g.indexToPoint i = some p ∧ g.pointToIndex p = some i := by
  obtain ⟨p, hp, rfl⟩ := Grid.exists_vidx hg.wf hi
  exact ⟨p, hp, Grid.indexToPoint_vidx hg.wf hp, Grid.pointToIndex_eq hg.wf hp⟩

/-- C02: indices are ordered like (Y, X, Z) tuples; in particular the mapping is injective. -/
theorem C02_order {g : Grid K} (hg : g.Reachable) (p q : IVec3) (i j : Nat) (hi : g.pointToIndex p = some i)
    (hj : g.pointToIndex q = some j) : (i < j ↔ LexYXZ p q) ∧ (i = j ↔ p = q) := by
  obtain ⟨hp, rfl⟩ := Grid.pointToIndex_some hg.wf hi
  obtain ⟨hq, rfl⟩ := Grid.pointToIndex_some hg.wf hj
  refine ⟨Grid.vidx_lt_iff hg.wf hp hq, Grid.vidx_inj hg.wf hp hq, ?_⟩
  rintro rfl; rfl

/-- C02: outside the grid the index functions fail their assertion (no index is produced). -/
theorem C02_outside {g : Grid K} (p : IVec3) (hp : ¬ InCube g.maxCoord p) : g.pointToIndex p = none :=
  Grid.pointToIndex_none p hp

/-! ### C03 -/

/-- C03: `isVertexInGrid` / `isEdgeInGrid` / `isFaceInGrid` / `isCellInGrid` hold exactly when all the vertices of the
element are in the cube. -/
theorem C03_inGrid (g : Grid K) (p : IVec3) :
    (g.isVertexInGrid p = true ↔ InCube g.maxCoord p) ∧
    (∀ D, g.isEdgeInGrid D p = true ↔ ∀ v ∈ edgeVertices D p, InCube g.maxCoord v) ∧
    (∀ D, g.isFaceInGrid D p = true ↔ ∀ v ∈ faceVertices D p, InCube g.maxCoord v) ∧
    (g.isCellInGrid p = true ↔ CellIn g.maxCoord p) := by
  have habs : ∀ a b : Int, |a| > b ↔ (a < -b ∨ b < a) := by
    intro a b; rw [gt_iff_lt, lt_abs]; omega
  refine ⟨Grid.isVertexInGrid_iff p, ?_, ?_, ?_⟩
  · intro D
    cases D <;> simp only [Grid.isEdgeInGrid, edgeVertices, Grid.maxCoord, InCube, shift, habs,
      List.mem_cons, List.not_mem_nil, or_false, forall_eq_or_imp, forall_eq] <;>
      split_ifs <;> simp <;> omega
  · intro D
    cases D <;> simp only [Grid.isFaceInGrid, faceVertices, Grid.maxCoord, InCube, shift, habs,
      List.mem_cons, List.not_mem_nil, or_false, forall_eq_or_imp, forall_eq] <;>
      split_ifs <;> simp <;> omega
  · simp only [Grid.isCellInGrid, CellIn, cellVertices, Grid.maxCoord, InCube, shift,
      List.mem_cons, List.not_mem_nil, or_false, forall_eq_or_imp, forall_eq]
    split_ifs <;> simp <;> omega

/-- C03: an element of the grid is reported to be on the border exactly when some unit cell around it (for a cell:
some face neighbour) is not a cell of the grid. -/
theorem C03_onBorder {g : Grid K} (hg : g.Reachable) (p : IVec3) :
    (InCube g.maxCoord p → (g.isVertexOnBorder p = true ↔ ∃ c ∈ cellsAroundVertex p, ¬ CellIn g.maxCoord c)) ∧
    (∀ D, (∀ v ∈ edgeVertices D p, InCube g.maxCoord v) →
      (g.isEdgeOnBorder D p = true ↔ ∃ c ∈ cellsAroundEdge D p, ¬ CellIn g.maxCoord c)) ∧
    (∀ D, (∀ v ∈ faceVertices D p, InCube g.maxCoord v) →
      (g.isFaceOnBorder D p = true ↔ ∃ c ∈ cellsAroundFace D p, ¬ CellIn g.maxCoord c)) ∧
    (CellIn g.maxCoord p → (g.isCellOnBorder p = true ↔ ∃ c ∈ cellNeighbours p, ¬ CellIn g.maxCoord c)) := by
  have h2 := hg.wf.two_le
  have hh := hg.wf.half_eq
  have habs : ∀ a b : Int, 0 ≤ b → (|a| = b ↔ (a = -b ∨ a = b)) := by
    intro a b hb; rw [abs_eq hb]; omega
  have hcell : ∀ c, CellIn g.maxCoord c ↔ (-g.half ≤ c.x ∧ c.x < g.half ∧ -g.half ≤ c.y ∧ c.y < g.half ∧
      -g.half ≤ c.z ∧ c.z < g.half) := by
    intro c
    simp only [CellIn, cellVertices, Grid.maxCoord, InCube, shift,
      List.mem_cons, List.not_mem_nil, or_false, forall_eq_or_imp, forall_eq]
    omega
  have h0 : 0 ≤ g.half := by omega
  refine ⟨?_, ?_, ?_, ?_⟩
  · intro h
    simp only [Grid.maxCoord, InCube] at h
    simp only [Grid.isVertexOnBorder, cellsAroundVertex, hcell, shift, habs _ _ h0,
      List.mem_cons, List.not_mem_nil, or_false, exists_eq_or_imp, exists_eq_left]
    split_ifs <;> simp <;> omega
  · intro D h
    cases D <;> simp only [edgeVertices, Grid.maxCoord, InCube, shift,
      List.mem_cons, List.not_mem_nil, or_false, forall_eq_or_imp, forall_eq] at h <;>
    simp only [Grid.isEdgeOnBorder, cellsAroundEdge, hcell, shift, habs _ _ h0,
      List.mem_cons, List.not_mem_nil, or_false, exists_eq_or_imp, exists_eq_left] <;>
    split_ifs <;> simp <;> omega
  · intro D h
    cases D <;> simp only [faceVertices, Grid.maxCoord, InCube, shift,
      List.mem_cons, List.not_mem_nil, or_false, forall_eq_or_imp, forall_eq] at h <;>
    simp only [Grid.isFaceOnBorder, cellsAroundFace, hcell, shift, habs _ _ h0,
      List.mem_cons, List.not_mem_nil, or_false, exists_eq_or_imp, exists_eq_left] <;>
    split_ifs <;> simp <;> omega
  · intro h
    rw [hcell] at h
    simp only [Grid.isCellOnBorder, cellNeighbours, hcell, shift,
      List.mem_cons, List.not_mem_nil, or_false, exists_eq_or_imp, exists_eq_left]
    split_ifs <;> simp <;> omega

/-- Non-vacuity for C02/C03: in the demo grid vertex (1,0,-1) is a border vertex of the grid, the origin is interior. -/
example : InCube demoGrid.maxCoord ⟨1, 0, -1⟩ ∧ demoGrid.isVertexOnBorder ⟨1, 0, -1⟩ = true ∧
    demoGrid.isVertexOnBorder ⟨0, 0, 0⟩ = false ∧ demoGrid.pointToIndex ⟨1, 0, -1⟩ = some 15 ∧
    (∀ v ∈ edgeVertices .X ⟨0, 1, 0⟩, InCube demoGrid.maxCoord v) ∧
    (∀ v ∈ faceVertices .Y ⟨0, 1, 0⟩, InCube demoGrid.maxCoord v) ∧ CellIn demoGrid.maxCoord ⟨0, -1, 0⟩ := by
  unfold CellIn; decide

/-! ### C04 -/

/-- Geometry of the specification list `cellsAroundEdge`: it consists of four different cells, each having both
endpoints of the edge as corners, and consecutive cells are face neighbours reached by turning counterclockwise about
the positive axis direction `D`. -/
theorem C04_around_edge_geometry (D : Axis) (p : IVec3) :
    (cellsAroundEdge D p).Nodup ∧ (∀ c ∈ cellsAroundEdge D p, ∀ v ∈ edgeVertices D p, v ∈ cellVertices c) ∧
    ∃ c0 c1 c2 c3, cellsAroundEdge D p = [c0, c1, c2, c3] ∧
      (c1 ∈ cellNeighbours c0 ∧ c2 ∈ cellNeighbours c1 ∧ c3 ∈ cellNeighbours c2 ∧ c0 ∈ cellNeighbours c3) ∧
      -- cross product of the first two moves is the unit vector along D
      (let a := (c1.x - c0.x, c1.y - c0.y, c1.z - c0.z)
       let b := (c2.x - c1.x, c2.y - c1.y, c2.z - c1.z)
       (a.2.1 * b.2.2 - a.2.2 * b.2.1, a.2.2 * b.1 - a.1 * b.2.2, a.1 * b.2.1 - a.2.1 * b.1) =
         match D with
         | .X => ((1, 0, 0) : Int × Int × Int)
         | .Y => (0, 1, 0)
         | .Z => (0, 0, 1)) := by
  obtain ⟨x, y, z⟩ := p
  refine ⟨?_, ?_, ?_⟩
  · cases D <;> simp [cellsAroundEdge, shift]
  · cases D <;> simp [cellsAroundEdge, shift, edgeVertices, cellVertices]
  · cases D <;> refine ⟨_, _, _, _, rfl, ?_, ?_⟩ <;> simp [shift, cellNeighbours]

theorem adjacentCells_wf {g : Grid K} (hw : g.WF) (D : Axis) (p : IVec3)
    (hp : ∀ v ∈ edgeVertices D p, InCube g.maxCoord v) :
    ∃ c0 c1 c2 c3 : Nat, g.adjacentCellsForEdge D p = some (c0, c1, c2, c3) ∧
      List.Forall₂ (fun (i : Nat) (c : IVec3) =>
          (CellIn g.maxCoord c → g.pointToIndex c = some i ∧ i ≠ kBadIndex) ∧ (¬ CellIn g.maxCoord c → i = kBadIndex))
        [c0, c1, c2, c3] (cellsAroundEdge D p) := by
  have h2 := hw.two_le
  have hle := hw.le
  have hh := hw.half_eq
  have hcell : ∀ c, CellIn g.maxCoord c ↔ (-g.half ≤ c.x ∧ c.x < g.half ∧ -g.half ≤ c.y ∧ c.y < g.half ∧
      -g.half ≤ c.z ∧ c.z < g.half) := by
    intro c
    simp only [CellIn, cellVertices, Grid.maxCoord, InCube, shift,
      List.mem_cons, List.not_mem_nil, or_false, forall_eq_or_imp, forall_eq]
    omega
  have hp0 : InCube g.half p := by
    apply hp; cases D <;> simp [edgeVertices]
  have hb := big_bound hw
  have u1 : u32 (g.size + 1) = g.size + 1 := u32_of_lt (by omega)
  have u2 : u32 ((g.size + 1) * (g.size + 1)) = (g.size + 1) * (g.size + 1) := u32_of_lt (sq_lt hle)
  have hlt := Grid.vidx_lt hw hp0
  have hvp := Grid.vidx_int hp0
  have hbad : ∀ q, InCube g.half q → g.vidx q ≠ kBadIndex := by
    intro q hq
    have := Grid.vidx_lt hw hq
    unfold kBadIndex
    omega
  -- value of the shifted index
  have key : ∀ (dx dy dz : Int), CellIn g.maxCoord (shift p dx dy dz) →
      g.pointToIndex (shift p dx dy dz) = some (g.vidx (shift p dx dy dz)) ∧
      g.vidx (shift p dx dy dz) ≠ kBadIndex ∧
      (g.vidx (shift p dx dy dz) : Int) = g.vidx p + dy * ((g.size + 1) * (g.size + 1)) + dx * (g.size + 1) + dz := by
    intro dx dy dz hc
    have hin : InCube g.half (shift p dx dy dz) := hc _ (by simp [cellVertices])
    refine ⟨Grid.pointToIndex_eq hw hin, hbad _ hin, ?_⟩
    rw [Grid.vidx_int hin, hvp]
    simp only [shift]
    ring
  have entry : ∀ (dx dy dz : Int) (bad : Prop) [Decidable bad] (v : Nat),
      (bad ↔ ¬ CellIn g.maxCoord (shift p dx dy dz)) →
      (∀ k : Nat, (k : Int) = g.vidx p + dy * ((g.size + 1) * (g.size + 1)) + dx * (g.size + 1) + dz → v = k) →
      ((CellIn g.maxCoord (shift p dx dy dz) →
        g.pointToIndex (shift p dx dy dz) = some (if bad then kBadIndex else v) ∧
          (if bad then kBadIndex else v) ≠ kBadIndex) ∧
      (¬ CellIn g.maxCoord (shift p dx dy dz) → (if bad then kBadIndex else v) = kBadIndex)) := by
    intro dx dy dz bad _ v hb hv
    refine ⟨fun hc => ?_, fun hc => if_pos (hb.2 hc)⟩
    have hnb : ¬ bad := fun h => (hb.1 h) hc
    obtain ⟨k1, k2, k3⟩ := key dx dy dz hc
    rw [if_neg hnb, hv _ k3]
    exact ⟨k1, k2⟩
  unfold Grid.adjacentCellsForEdge
  rw [Grid.pointToIndex_eq hw hp0]
  obtain ⟨hx0, hy0, hz0⟩ := hp0
  have hsq : (g.size + 1) ≤ (g.size + 1) * (g.size + 1) := Nat.le_mul_of_pos_right _ (by omega)
  generalize hN : (g.size + 1) * (g.size + 1) * (g.size + 1) = N at *
  have hMi : ((g.size : Int) + 1) * ((g.size : Int) + 1) = (((g.size + 1) * (g.size + 1) : Nat) : Int) := by push_cast; ring
  rw [hMi] at entry
  generalize hM : (g.size + 1) * (g.size + 1) = M at *
  have hne : ¬ g.half = -g.half := by omega
  cases D with
  | X =>
    simp only [edgeVertices, Grid.maxCoord, InCube, shift,
      List.mem_cons, List.not_mem_nil, or_false, forall_eq_or_imp, forall_eq] at hp
    dsimp only
    rw [u1, hM, u2]
    refine ⟨if p.y = -g.half ∨ p.z = -g.half then kBadIndex else u32sub (u32sub (g.vidx p) M) 1,
      if p.y = g.half ∨ p.z = -g.half then kBadIndex else u32sub (g.vidx p) 1,
      if p.y = g.half ∨ p.z = g.half then kBadIndex else g.vidx p,
      if p.y = -g.half ∨ p.z = g.half then kBadIndex else u32sub (g.vidx p) M, ?_, ?_⟩
    · rcases Classical.propComplete (p.y = -g.half) with a1 | a1 <;> rcases Classical.propComplete (p.y = g.half) with a2 | a2 <;>
        rcases Classical.propComplete (p.z = -g.half) with a3 | a3 <;> rcases Classical.propComplete (p.z = g.half) with a4 | a4 <;>
        simp only [a1, a2, a3, a4, if_true, if_false, true_or, or_true, or_false, or_self]
    · refine .cons (entry 0 (-1) (-1) _ _ ?_ ?_) (.cons (entry 0 0 (-1) _ _ ?_ ?_) (.cons (entry 0 0 0 _ _ ?_ ?_)
        (.cons (entry 0 (-1) 0 _ _ ?_ ?_) .nil)))
      · rw [hcell]; simp only [shift]; omega
      · intro k hk; rw [u32sub_of_le (by rw [u32sub_of_le] <;> omega) (by rw [u32sub_of_le] <;> omega), u32sub_of_le] <;> omega
      · rw [hcell]; simp only [shift]; omega
      · intro k hk; rw [u32sub_of_le] <;> omega
      · rw [hcell]; simp only [shift]; omega
      · intro k hk; omega
      · rw [hcell]; simp only [shift]; omega
      · intro k hk; rw [u32sub_of_le] <;> omega
  | Y =>
    simp only [edgeVertices, Grid.maxCoord, InCube, shift,
      List.mem_cons, List.not_mem_nil, or_false, forall_eq_or_imp, forall_eq] at hp
    dsimp only
    rw [u1]
    refine ⟨if p.x = -g.half ∨ p.z = -g.half then kBadIndex else u32sub (u32sub (g.vidx p) (g.size + 1)) 1,
      if p.x = -g.half ∨ p.z = g.half then kBadIndex else u32sub (g.vidx p) (g.size + 1),
      if p.x = g.half ∨ p.z = g.half then kBadIndex else g.vidx p,
      if p.x = g.half ∨ p.z = -g.half then kBadIndex else u32sub (g.vidx p) 1, ?_, ?_⟩
    · rcases Classical.propComplete (p.x = -g.half) with a1 | a1 <;> rcases Classical.propComplete (p.x = g.half) with a2 | a2 <;>
        rcases Classical.propComplete (p.z = -g.half) with a3 | a3 <;> rcases Classical.propComplete (p.z = g.half) with a4 | a4 <;>
        simp only [a1, a2, a3, a4, if_true, if_false, true_or, or_true, or_false, or_self]
    · refine .cons (entry (-1) 0 (-1) _ _ ?_ ?_) (.cons (entry (-1) 0 0 _ _ ?_ ?_) (.cons (entry 0 0 0 _ _ ?_ ?_)
        (.cons (entry 0 0 (-1) _ _ ?_ ?_) .nil)))
      · rw [hcell]; simp only [shift]; omega
      · intro k hk; rw [u32sub_of_le (by rw [u32sub_of_le] <;> omega) (by rw [u32sub_of_le] <;> omega), u32sub_of_le] <;> omega
      · rw [hcell]; simp only [shift]; omega
      · intro k hk; rw [u32sub_of_le] <;> omega
      · rw [hcell]; simp only [shift]; omega
      · intro k hk; omega
      · rw [hcell]; simp only [shift]; omega
      · intro k hk; rw [u32sub_of_le] <;> omega
  | Z =>
    simp only [edgeVertices, Grid.maxCoord, InCube, shift,
      List.mem_cons, List.not_mem_nil, or_false, forall_eq_or_imp, forall_eq] at hp
    dsimp only
    rw [u1, hM, u2]
    refine ⟨if p.x = -g.half ∨ p.y = -g.half then kBadIndex else u32sub (u32sub (g.vidx p) (g.size + 1)) M,
      if p.x = g.half ∨ p.y = -g.half then kBadIndex else u32sub (g.vidx p) M,
      if p.x = g.half ∨ p.y = g.half then kBadIndex else g.vidx p,
      if p.x = -g.half ∨ p.y = g.half then kBadIndex else u32sub (g.vidx p) (g.size + 1), ?_, ?_⟩
    · rcases Classical.propComplete (p.x = -g.half) with a1 | a1 <;> rcases Classical.propComplete (p.x = g.half) with a2 | a2 <;>
        rcases Classical.propComplete (p.y = -g.half) with a3 | a3 <;> rcases Classical.propComplete (p.y = g.half) with a4 | a4 <;>
        simp only [a1, a2, a3, a4, if_true, if_false, true_or, or_true, or_false, or_self]
    · refine .cons (entry (-1) (-1) 0 _ _ ?_ ?_) (.cons (entry 0 (-1) 0 _ _ ?_ ?_) (.cons (entry 0 0 0 _ _ ?_ ?_)
        (.cons (entry (-1) 0 0 _ _ ?_ ?_) .nil)))
      · rw [hcell]; simp only [shift]; omega
      · intro k hk; rw [u32sub_of_le (by rw [u32sub_of_le] <;> omega) (by rw [u32sub_of_le] <;> omega), u32sub_of_le] <;> omega
      · rw [hcell]; simp only [shift]; omega
      · intro k hk; rw [u32sub_of_le] <;> omega
      · rw [hcell]; simp only [shift]; omega
      · intro k hk; omega
      · rw [hcell]; simp only [shift]; omega
      · intro k hk; rw [u32sub_of_le] <;> omega

/-- C04: for an in-grid edge, each of the four reported entries is the index of the cell on that side when this cell
belongs to the grid, and `kBadIndex` otherwise (and `kBadIndex` is no cell index). -/
theorem C04_adjacentCells {g : Grid K} (hg : g.Reachable) (D : Axis) (p : IVec3)
    (hp : ∀ v ∈ edgeVertices D p, InCube g.maxCoord v) :
    ∃ c0 c1 c2 c3 : Nat, g.adjacentCellsForEdge D p = some (c0, c1, c2, c3) ∧
      List.Forall₂ (fun (i : Nat) (c : IVec3) =>
          (CellIn g.maxCoord c → g.pointToIndex c = some i ∧ i ≠ kBadIndex) ∧ (¬ CellIn g.maxCoord c → i = kBadIndex))
        [c0, c1, c2, c3] (cellsAroundEdge D p) :=
  adjacentCells_wf hg.wf D p hp

/-- Non-vacuity for C04: an edge of the demo grid with two cells outside the grid. -/
example : (∀ v ∈ edgeVertices .X ⟨0, 1, 0⟩, InCube demoGrid.maxCoord v) ∧
    demoGrid.adjacentCellsForEdge .X ⟨0, 1, 0⟩ = some (12, kBadIndex, kBadIndex, 13) ∧
    demoGrid.adjacentCellsForEdge .Z ⟨0, 0, -1⟩ = some (0, 3, 12, 9) := by decide

/-! ### C05 -/

theorem cell_vertices_wf {g : Grid K} (hw : g.WF) (p : IVec3) (hp : CellIn g.maxCoord p) :
    ∃ i, g.pointToIndex p = some i ∧
      (cellVertices p).map g.pointToIndex = (g.adjacentVerticesForCell i).map some ∧
      (∀ k ∈ g.adjacentVerticesForCell i, k < g.dataSize) ∧
      g.materialsOfCell i = (cellVertices p).mapM g.at := by
  have hin : ∀ v ∈ cellVertices p, InCube g.half v := hp
  have hp0 : InCube g.half p := hp p (by simp [cellVertices])
  have hb := big_bound hw
  have hle := hw.le
  have u1 : u32 (g.size + 1) = g.size + 1 := u32_of_lt (by omega)
  have u2 : u32 ((g.size + 1) * (g.size + 1)) = (g.size + 1) * (g.size + 1) := u32_of_lt (sq_lt hle)
  have hlt := Grid.vidx_lt hw hp0
  have hv : (cellVertices p).map g.vidx = g.adjacentVerticesForCell (g.vidx p) := by
    have e : ∀ dx dy dz : Nat, InCube g.half (shift p dx dy dz) →
        g.vidx (shift p dx dy dz) = g.vidx p + dy * ((g.size + 1) * (g.size + 1)) + dx * (g.size + 1) + dz := by
      intro dx dy dz h
      zify
      rw [Grid.vidx_int h, Grid.vidx_int hp0]
      simp only [shift]
      ring
    simp only [cellVertices, List.mem_cons, List.not_mem_nil, or_false, forall_eq_or_imp, forall_eq] at hin
    obtain ⟨h0, h1, h2, h3, h4, h5, h6, h7⟩ := hin
    have e1 := e 0 0 1 h1
    have e2 := e 1 0 0 h2
    have e3 := e 1 0 1 h3
    have e4 := e 0 1 0 h4
    have e5 := e 0 1 1 h5
    have e6 := e 1 1 0 h6
    have e7 := e 1 1 1 h7
    simp only [Nat.cast_zero, Nat.cast_one] at e1 e2 e3 e4 e5 e6 e7
    simp only [cellVertices, List.map_cons, List.map_nil, Grid.adjacentVerticesForCell]
    rw [u1, u2, e1, e2, e3, e4, e5, e6, e7]
    have hsz := hw.two_le
    generalize hN : (g.size + 1) * (g.size + 1) * (g.size + 1) = N at *
    generalize hM : (g.size + 1) * (g.size + 1) = M at *
    unfold u32
    simp only [List.cons.injEq, and_true]
    refine ⟨trivial, ?_, ?_, ?_, ?_, ?_, ?_, ?_⟩ <;> omega
  refine ⟨g.vidx p, Grid.pointToIndex_eq hw hp0, ?_, ?_, ?_⟩
  · rw [← hv, List.map_map]
    apply List.map_congr_left
    intro v hvm
    exact Grid.pointToIndex_eq hw (hin v hvm)
  · intro k hk
    rw [← hv, List.mem_map] at hk
    obtain ⟨v, hvm, rfl⟩ := hk
    exact Grid.vidx_lt' hw (hin v hvm)
  · have : g.materialsOfCell (g.vidx p) = (g.adjacentVerticesForCell (g.vidx p)).mapM g.readMat := rfl
    rw [this, ← hv]
    have hat : ∀ v ∈ cellVertices p, g.at v = g.readMat (g.vidx v) := by
      intro v hvm
      unfold Grid.at
      rw [Grid.pointToIndex_eq hw (hin v hvm)]
    clear this hv hin hp
    revert hat
    generalize cellVertices p = l
    intro hat
    induction l with
    | nil => rfl
    | cons a l ih =>
      simp only [List.map_cons, List.mapM_cons]
      rw [ih (fun v hv => hat v (List.mem_cons_of_mem _ hv)), hat a List.mem_cons_self]

/-- C05: the eight vertex indices reported for an in-grid cell are those of its corners (z fastest, then x, then y),
all in range, and `materialsOfCell` reads exactly the materials at these vertices. -/
theorem C05_cell_vertices {g : Grid K} (hg : g.Reachable) (p : IVec3) (hp : CellIn g.maxCoord p) :
    ∃ i, g.pointToIndex p = some i ∧
      (cellVertices p).map g.pointToIndex = (g.adjacentVerticesForCell i).map some ∧
      (∀ k ∈ g.adjacentVerticesForCell i, k < g.dataSize) ∧
      g.materialsOfCell i = (cellVertices p).mapM g.at :=
  cell_vertices_wf hg.wf p hp

/-- Non-vacuity for C05. -/
example : CellIn demoGrid.maxCoord ⟨-1, 0, -1⟩ ∧
    demoGrid.adjacentVerticesForCell 9 = [9, 10, 12, 13, 18, 19, 21, 22] := by
  unfold CellIn; decide

/-! ### C73: `fill` with any arithmetic -/

/-- C73: whatever addition, multiplication and division do, `fill` succeeds on every grid and afterwards every vertex has the
material chosen by the field at the position at which it was sampled. -/
theorem C73_fill_materials {g : Grid K} (hg : g.Reachable) (f : ScalarField K) (sv : ZeroFinder K) :
    ∃ g', g.fill f sv = some g' ∧
      (g'.size = g.size ∧ g'.half = g.half ∧ g'.globalPos = g.globalPos ∧ g'.step = g.step) ∧
      ∀ p, InCube g.maxCoord p → g'.at p = some (vertexMaterial f (samplePos g.globalPos g.step g.maxCoord p)) := by
  obtain ⟨g', e, h1, h2, h3, h4, h5, h6, _⟩ := fillR_spec hg.wf f sv
  refine ⟨g', e, ⟨h1, h2, h3, h4⟩, ?_⟩
  intro p hp
  have hp' : InCube g'.half p := by rw [h2]; exact hp
  unfold Grid.at
  rw [Grid.pointToIndex_eq (fill_wf hg.wf e) hp']
  have hv : g'.vidx p = g.vidx p := by unfold Grid.vidx; rw [h1, h2]
  simp only [Grid.readMat, hv, h6 p hp, Option.join_some]
  rw [sampleMat_eq]
  rfl

/-- C73: whatever addition, multiplication and division do, the storages contain a record for exactly the in-grid edges
whose endpoints were sampled with different signs, one each. -/
theorem C73_fill_edges {g g' : Grid K} (hg : g.Reachable) {f : ScalarField K} {sv : ZeroFinder K}
    (h : g.fill f sv = some g') (D : Axis) :
    let pos := worldPos g.globalPos g.step
    let sample := samplePos g.globalPos g.step g.maxCoord
    (∀ e, e ∈ g'.edges D ↔ ∃ p, (∀ v ∈ edgeVertices D p, InCube g.maxCoord v) ∧ Crosses f sample D p ∧
        e = sampledRecord f sv sample pos g.step D p) ∧
    (g'.edges D).Pairwise (fun a b => a.lesser ≠ b.lesser) := by
  obtain ⟨g'', e, _, _, _, _, _, _, h7⟩ := fillR_spec hg.wf f sv
  rw [h] at e; cases e
  dsimp only
  rw [h7 D]
  constructor
  · intro e
    rw [mem_allEdgesR]
    have : ∀ p, EdgeIn g.half D p ↔ ∀ v ∈ edgeVertices D p, InCube g.maxCoord v := by
      intro p
      cases D <;> simp [EdgeIn, edgeVertices, edgeEnd, Grid.maxCoord]
    simp only [this]
    rfl
  · refine (allEdgesR_sorted g f sv D).imp ?_
    intro a b hab heq
    rw [heq] at hab
    exact LexYXZ.irrefl _ hab

/-- C73: `findEdge` finds exactly these records. -/
theorem C73_findEdge_after_fill {g g' : Grid K} (hg : g.Reachable) {f : ScalarField K} {sv : ZeroFinder K}
    (h : g.fill f sv = some g') (D : Axis) (x y z : Int) :
    let pos := worldPos g.globalPos g.step
    let sample := samplePos g.globalPos g.step g.maxCoord
    let p : IVec3 := ⟨x, y, z⟩
    (((∀ v ∈ edgeVertices D p, InCube g.maxCoord v) ∧ Crosses f sample D p) →
      ∃ i, findEdge (g'.edges D) x y z = some i ∧ (g'.edges D)[i]? = some (sampledRecord f sv sample pos g.step D p)) ∧
    (¬ ((∀ v ∈ edgeVertices D p, InCube g.maxCoord v) ∧ Crosses f sample D p) →
      findEdge (g'.edges D) x y z = none) := by
  obtain ⟨hmem, -⟩ := C73_fill_edges hg h D
  obtain ⟨g'', e, _, _, _, _, _, _, h7⟩ := fillR_spec hg.wf f sv
  rw [h] at e; cases e
  have hsorted : SortedEdges (g'.edges D) := by
    rw [h7 D]
    refine (allEdgesR_sorted g f sv D).imp ?_
    intro a b hab hba
    exact LexYXZ.irrefl _ (hab.trans hba)
  have hfit : ∀ e ∈ g'.edges D,
      fitsInt16 e.lesser.x = true ∧ fitsInt16 e.lesser.y = true ∧ fitsInt16 e.lesser.z = true := by
    intro e he
    obtain ⟨p, hp, _, rfl⟩ := (hmem e).1 he
    have hp0 : InCube g.half p := hp p (by cases D <;> simp [edgeVertices])
    have := fits_of_inCube hg.wf hp0
    simp only [Bool.and_eq_true] at this
    exact ⟨this.1.1, this.1.2, this.2⟩
  obtain ⟨f1, f2⟩ := findEdge_spec (g'.edges D) hsorted hfit x y z
  refine ⟨?_, ?_⟩
  · intro hc
    have hin : sampledRecord f sv (samplePos g.globalPos g.step g.maxCoord) (worldPos g.globalPos g.step) g.step D ⟨x, y, z⟩ ∈ g'.edges D :=
      (hmem _).2 ⟨_, hc.1, hc.2, rfl⟩
    cases hf : findEdge (g'.edges D) x y z with
    | none => exact absurd rfl (f2.1 hf _ hin)
    | some i =>
      obtain ⟨e, he, hl, -⟩ := f1 i hf
      refine ⟨i, rfl, ?_⟩
      obtain ⟨p, -, -, rfl⟩ := (hmem e).1 (List.mem_of_getElem? he)
      rw [sampledRecord_lesser] at hl
      rw [he, hl]
  · intro hc
    rw [f2]
    intro e he hl
    obtain ⟨p, hp, hcr, rfl⟩ := (hmem e).1 he
    rw [sampledRecord_lesser] at hl
    rw [hl] at hp hcr
    exact hc ⟨hp, hcr⟩

end

section
variable {K : Type} [Field K] [LinearOrder K] [IsStrictOrderedRing K]

/-! ### C06 -/

/-- C06: `fill` succeeds on every grid (no failed assertion, no out-of-bounds access) and afterwards every vertex has
the material chosen by the field at the vertex's global position, `Empty` if the field value there is positive. -/
theorem C06_fill_materials {g : Grid K} (hg : g.Reachable) (f : ScalarField K) (sv : ZeroFinder K) :
    ∃ g', g.fill f sv = some g' ∧
      (g'.size = g.size ∧ g'.half = g.half ∧ g'.globalPos = g.globalPos ∧ g'.step = g.step) ∧
      ∀ p, InCube g.maxCoord p → g'.at p = some (vertexMaterial f (worldPos g.globalPos g.step p)) := by
  obtain ⟨g', e, h1, h2, h3, h4, h5, h6, _⟩ := fill_spec hg.wf f sv
  refine ⟨g', e, ⟨h1, h2, h3, h4⟩, ?_⟩
  intro p hp
  have hp' : InCube g'.half p := by rw [h2]; exact hp
  unfold Grid.at
  rw [Grid.pointToIndex_eq (fill_wf hg.wf e) hp']
  have hv : g'.vidx p = g.vidx p := by unfold Grid.vidx; rw [h1, h2]
  simp only [Grid.readMat, hv, h6 p hp, Option.join_some]
  rw [fieldMat_eq, gpos_eq]

/-! ### C07 -/

/-- C07: after `fill` the storage for axis `D` contains a record for exactly the in-grid edges crossed by the surface,
one each, with the right contents. -/
theorem C07_fill_edges {g g' : Grid K} (hg : g.Reachable) {f : ScalarField K} {sv : ZeroFinder K}
    (h : g.fill f sv = some g') (D : Axis) :
    let pos := worldPos g.globalPos g.step
    (∀ e, e ∈ g'.edges D ↔ ∃ p, (∀ v ∈ edgeVertices D p, InCube g.maxCoord v) ∧ Crosses f pos D p ∧
        e = edgeRecord f sv pos g.step D p) ∧
    (g'.edges D).Pairwise (fun a b => a.lesser ≠ b.lesser) := by
  obtain ⟨g'', e, _, _, _, _, _, _, h7⟩ := fill_spec hg.wf f sv
  rw [h] at e; cases e
  dsimp only
  rw [h7 D]
  constructor
  · intro e
    rw [mem_allEdges]
    have : ∀ p, EdgeIn g.half D p ↔ ∀ v ∈ edgeVertices D p, InCube g.maxCoord v := by
      intro p
      cases D <;> simp [EdgeIn, edgeVertices, edgeEnd, Grid.maxCoord]
    simp only [this]
    rfl
  · refine (allEdges_sorted g f sv D).imp ?_
    intro a b hab heq
    rw [heq] at hab
    exact LexYXZ.irrefl _ hab

/-- C07: every call of the solver made by `fill` meets the solver's documented precondition
`f0 * f1 <= 0` and `|f0| + |f1| > 0`. -/
theorem C07_solver_precondition {f : ScalarField K} {pos : IVec3 → Vec3 K} {D : Axis} {p : IVec3}
    (h : Crosses f pos D p) :
    f.value (pos p) * f.value (pos (edgeEnd D p)) ≤ 0 ∧ 0 < |f.value (pos p)| + |f.value (pos (edgeEnd D p))| := by
  unfold Crosses at h
  generalize f.value (pos p) = a at *
  generalize f.value (pos (edgeEnd D p)) = b at *
  by_cases ha : a ≤ 0
  · have hb : 0 < b := by
      by_contra hb; exact h ⟨fun _ => not_lt.1 hb, fun _ => ha⟩
    exact ⟨mul_nonpos_of_nonpos_of_nonneg ha hb.le, by have := abs_pos.2 hb.ne'; have := abs_nonneg a; linarith⟩
  · have ha' : 0 < a := not_le.1 ha
    have hb : b ≤ 0 := by
      by_contra hb; exact h ⟨fun h => absurd h ha, fun h => absurd h hb⟩
    exact ⟨mul_nonpos_of_nonneg_of_nonpos ha'.le hb, by have := abs_pos.2 ha'.ne'; have := abs_nonneg b; linarith⟩

/-- C07: if the solver returns a coordinate between the endpoints (as both solvers do, C11/C12), the stored offset is in
[0, 1] for a positive grid step. -/
theorem C07_offset {f : ScalarField K} {sv : ZeroFinder K} {origin : Vec3 K} {step : K} (hstep : 0 < step)
    {D : Axis} {p : IVec3}
    (hsv : ((worldPos origin step p).get D ≤ crossingCoord f sv (worldPos origin step) D p) ∧
      crossingCoord f sv (worldPos origin step) D p ≤ (worldPos origin step (edgeEnd D p)).get D) :
    0 ≤ (edgeRecord f sv (worldPos origin step) step D p).offset ∧
    (edgeRecord f sv (worldPos origin step) step D p).offset ≤ 1 := by
  have e : (worldPos origin step (edgeEnd D p)).get D = (worldPos origin step p).get D + step := by
    cases D <;> simp [worldPos, edgeEnd, shift, Vec3.get] <;> ring
  unfold edgeRecord
  simp only
  constructor
  · apply div_nonneg _ hstep.le
    linarith [hsv.1]
  · rw [div_le_one hstep]
    linarith [hsv.2]

/-! ### C08 -/

/-- C08: directly after `fill`, `findEdge` finds exactly the crossing in-grid edges, for any integer coordinates. -/
theorem C08_findEdge_after_fill {g g' : Grid K} (hg : g.Reachable) {f : ScalarField K} {sv : ZeroFinder K}
    (h : g.fill f sv = some g') (D : Axis) (x y z : Int) :
    let pos := worldPos g.globalPos g.step
    let p : IVec3 := ⟨x, y, z⟩
    (((∀ v ∈ edgeVertices D p, InCube g.maxCoord v) ∧ Crosses f pos D p) →
      ∃ i, findEdge (g'.edges D) x y z = some i ∧ (g'.edges D)[i]? = some (edgeRecord f sv pos g.step D p)) ∧
    (¬ ((∀ v ∈ edgeVertices D p, InCube g.maxCoord v) ∧ Crosses f pos D p) →
      findEdge (g'.edges D) x y z = none) := by
  obtain ⟨hmem, -⟩ := C07_fill_edges hg h D
  obtain ⟨g'', e, _, _, _, _, _, _, h7⟩ := fill_spec hg.wf f sv
  rw [h] at e; cases e
  have hsorted : SortedEdges (g'.edges D) := by
    rw [h7 D]
    refine (allEdges_sorted g f sv D).imp ?_
    intro a b hab hba
    exact LexYXZ.irrefl _ (hab.trans hba)
  have hfit : ∀ e ∈ g'.edges D,
      fitsInt16 e.lesser.x = true ∧ fitsInt16 e.lesser.y = true ∧ fitsInt16 e.lesser.z = true := by
    intro e he
    obtain ⟨p, hp, _, rfl⟩ := (hmem e).1 he
    have hp0 : InCube g.half p := hp p (by cases D <;> simp [edgeVertices])
    have := fits_of_inCube hg.wf hp0
    simp only [Bool.and_eq_true] at this
    exact ⟨this.1.1, this.1.2, this.2⟩
  obtain ⟨f1, f2⟩ := findEdge_spec (g'.edges D) hsorted hfit x y z
  refine ⟨?_, ?_⟩
  · intro hc
    have hin : edgeRecord f sv (worldPos g.globalPos g.step) g.step D ⟨x, y, z⟩ ∈ g'.edges D :=
      (hmem _).2 ⟨_, hc.1, hc.2, rfl⟩
    cases hf : findEdge (g'.edges D) x y z with
    | none => exact absurd rfl (f2.1 hf _ hin)
    | some i =>
      obtain ⟨e, he, hl, -⟩ := f1 i hf
      refine ⟨i, rfl, ?_⟩
      obtain ⟨p, -, -, rfl⟩ := (hmem e).1 (List.mem_of_getElem? he)
      rw [edgeRecord_lesser] at hl
      rw [he, hl]
  · intro hc
    rw [f2]
    intro e he hl
    obtain ⟨p, hp, hcr, rfl⟩ := (hmem e).1 he
    rw [edgeRecord_lesser] at hl
    rw [hl] at hp hcr
    exact hc ⟨hp, hcr⟩

/-- A concrete field (a slanted plane), solver and filled grid: the hypotheses of C06–C08 are met non-trivially; the
filled demo grid has crossing edges along X and along Z. -/
def demoField : ScalarField ℚ :=
  { value := fun p => p.x - p.z - 1 / 2, grad := fun _ => ⟨1, 0, -1⟩, material := fun _ _ => .Stone }

def demoSolver : ZeroFinder ℚ :=
  { findAlongX := fun x0 _ _ x1 _ _ _ => (x0 + x1) / 2, findAlongY := fun _ y0 _ y1 _ _ _ => (y0 + y1) / 2,
    findAlongZ := fun _ _ z0 z1 _ _ _ => (z0 + z1) / 2 }

example : ∃ g', demoGrid.fill demoField demoSolver = some g' ∧ g'.Reachable := by
  obtain ⟨g', e, -⟩ := C06_fill_materials demoGrid_reachable demoField demoSolver
  exact ⟨g', e, .fill demoGrid_reachable e⟩

example : Crosses demoField (worldPos demoGrid.globalPos demoGrid.step) .X ⟨0, 1, 0⟩ ∧
    (∀ v ∈ edgeVertices .X ⟨0, 1, 0⟩, InCube demoGrid.maxCoord v) ∧
    ¬ Crosses demoField (worldPos demoGrid.globalPos demoGrid.step) .Y ⟨0, -1, 0⟩ := by
  refine ⟨?_, by decide, ?_⟩ <;>
    norm_num [Crosses, demoField, worldPos, demoGrid, edgeEnd, shift]

example : (worldPos demoGrid.globalPos (1 : ℚ) ⟨0, 1, 0⟩).get .X ≤
      crossingCoord demoField demoSolver (worldPos demoGrid.globalPos 1) .X ⟨0, 1, 0⟩ ∧
    crossingCoord demoField demoSolver (worldPos demoGrid.globalPos 1) .X ⟨0, 1, 0⟩ ≤
      (worldPos demoGrid.globalPos (1 : ℚ) (edgeEnd .X ⟨0, 1, 0⟩)).get .X := by
  norm_num [crossingCoord, demoSolver, worldPos, demoGrid, edgeEnd, shift, Vec3.get]

end

section
variable {K : Type} [Add K] [Sub K] [Mul K] [Div K] [Zero K] [IntCast K] [LE K] [LT K] [DecidableLE K] [DecidableLT K]

/-! ### C09 -/

/-- C09: for any storage content `s'` that is a rearrangement of the added edges `s` in which no edge is less than an
earlier one (this is what `std::sort` guarantees), `findEdge` finds an edge with the given lesser endpoint iff one was
added, and the iterator points at such an edge. -/
theorem C09_findEdge_sorted (s s' : List (GridEdge K)) (hperm : s'.Perm s)
    (hsort : s'.Pairwise (fun a b => edgeLess b.lesser a.lesser = false))
    (hfit : ∀ e ∈ s, fitsInt16 e.lesser.x = true ∧ fitsInt16 e.lesser.y = true ∧ fitsInt16 e.lesser.z = true)
    (x y z : Int) :
    ((∃ e ∈ s, e.lesser = ⟨x, y, z⟩) ↔ ∃ i, findEdge s' x y z = some i) ∧
    (∀ i, findEdge s' x y z = some i → ∃ e ∈ s, s'[i]? = some e ∧ e.lesser = ⟨x, y, z⟩) := by
  have hs : SortedEdges s' := hsort.imp (by intro a b h; rwa [edgeLess_false_iff] at h)
  obtain ⟨f1, f2⟩ := findEdge_spec s' hs (fun e he => hfit e (hperm.mem_iff.1 he)) x y z
  refine ⟨?_, ?_⟩
  · constructor
    · rintro ⟨e, he, hl⟩
      cases hf : findEdge s' x y z with
      | none => exact absurd hl (f2.1 hf e (hperm.mem_iff.2 he))
      | some i => exact ⟨i, rfl⟩
    · rintro ⟨i, hi⟩
      obtain ⟨e, he, hl, -⟩ := f1 i hi
      exact ⟨e, hperm.mem_iff.1 (List.mem_of_getElem? he), hl⟩
  · intro i hi
    obtain ⟨e, he, hl, -⟩ := f1 i hi
    exact ⟨e, hperm.mem_iff.1 (List.mem_of_getElem? he), he, hl⟩

/-- C09: `sortEdges` yields such a rearrangement, so adding any edges in any order, sorting and searching works. -/
theorem C09_sortEdges (s : List (GridEdge K)) :
    (sortEdges s).Perm s ∧ (sortEdges s).Pairwise (fun a b => edgeLess b.lesser a.lesser = false) := by
  refine ⟨sortEdges_perm s, (sortEdges_sorted s).imp ?_⟩
  intro a b h; rwa [edgeLess_false_iff]

/-- Adding a sequence of edges (`addEdge` calls) keeps all of them, in order, as long as coordinates fit `int16_t`;
otherwise an assertion fails. -/
theorem C09_addEdges (s t : List (GridEdge K)) :
    t.foldlM addEdge s =
      if ∀ e ∈ t, (fitsInt16 e.lesser.x && fitsInt16 e.lesser.y && fitsInt16 e.lesser.z) = true then some (s ++ t)
      else none := by
  induction t generalizing s with
  | nil => simp
  | cons a t ih =>
    rw [List.foldlM_cons]
    unfold addEdge at *
    by_cases h : (fitsInt16 a.lesser.x && fitsInt16 a.lesser.y && fitsInt16 a.lesser.z) = true
    · rw [if_pos h]
      simp only [Option.bind_eq_bind, Option.bind_some]
      rw [ih]
      simp only [List.mem_cons, forall_eq_or_imp, h, true_and, List.append_assoc, List.singleton_append]
    · rw [if_neg h, if_neg]
      · rfl
      · intro hall; exact h (hall a List.mem_cons_self)

/-- Non-vacuity for C09: three edges added out of order, with a duplicate endpoint. -/
def demoEdge (x y z : Int) : GridEdge ℚ := ⟨⟨x, y, z⟩, ⟨0, 1, 0⟩, 1 / 2, .Y, true, .Soil⟩

example : (∀ e ∈ [demoEdge 2 3 4, demoEdge (-5) 0 1, demoEdge 2 3 4],
      fitsInt16 e.lesser.x = true ∧ fitsInt16 e.lesser.y = true ∧ fitsInt16 e.lesser.z = true) ∧
    (∃ e ∈ [demoEdge 2 3 4, demoEdge (-5) 0 1, demoEdge 2 3 4], e.lesser = ⟨-5, 0, 1⟩) := by
  constructor
  · intro e he
    simp only [List.mem_cons, List.not_mem_nil, or_false] at he
    rcases he with rfl | rfl | rfl <;> decide
  · exact ⟨_, List.mem_cons_of_mem _ List.mem_cons_self, rfl⟩

/-! ### C10 -/

/-- C10: the result of `fill` depends only on the grid's size, position and step, not on anything done to the grid
before (whatever histories `g₁` and `g₂` have). -/
theorem C10_refill {g₁ g₂ : Grid K} (h₁ : g₁.Reachable) (h₂ : g₂.Reachable) (hs : g₁.size = g₂.size)
    (hp : g₁.globalPos = g₂.globalPos) (ht : g₁.step = g₂.step) (f : ScalarField K) (sv : ZeroFinder K) :
    g₁.fill f sv = g₂.fill f sv := by
  have hw1 := h₁.wf
  have hw2 := h₂.wf
  have hh : g₁.half = g₂.half := by
    have a := hw1.half_eq
    have b := hw2.half_eq
    rw [hs] at a
    omega
  obtain ⟨a, ea, a1, a2, a3, a4, a5, a6, a7⟩ := fillR_spec hw1 f sv
  obtain ⟨b, eb, b1, b2, b3, b4, b5, b6, b7⟩ := fillR_spec hw2 f sv
  rw [ea, eb]
  congr 1
  have hpos : g₁.gpos = g₂.gpos := by
    funext p; rw [gpos_eq, gpos_eq, hp, ht]
  have hspos : g₁.spos = g₂.spos := by
    funext p; unfold Grid.spos; rw [hp, ht, hh]
  have hv : g₁.vidx = g₂.vidx := by funext p; unfold Grid.vidx; rw [hs, hh]
  have hd : g₁.dataSize = g₂.dataSize := by unfold Grid.dataSize; rw [hs]
  have hE : ∀ D, a.edges D = b.edges D := by
    intro D
    rw [a7, b7]
    have hout : edgeOutR g₁ f sv D = edgeOutR g₂ f sv D := by
      funext p; unfold edgeOutR; rw [hpos, hspos, ht]
    have x1 : hiX g₁ D = hiX g₂ D := by cases D <;> simp [hiX, hh]
    have x2 : hiY g₁ D = hiY g₂ D := by cases D <;> simp [hiY, hh]
    have x3 : hiZ g₁ D = hiZ g₂ D := by cases D <;> simp [hiZ, hh]
    unfold allEdgesR rowYR rowXR rowZR
    rw [hout, x1, x2, x3, hh]
  have hm : a.mat = b.mat := by
    apply List.ext_getElem?
    intro i
    by_cases hi : i < g₁.dataSize
    · obtain ⟨p, hp', rfl⟩ := Grid.exists_vidx hw1 hi
      rw [a6 p hp']
      have : g₁.vidx p = g₂.vidx p := by rw [hv]
      rw [this, b6 p (by rw [← hh]; exact hp')]
      unfold sampleMat
      rw [hspos]
    · rw [List.getElem?_eq_none (by rw [a5]; omega), List.getElem?_eq_none (by rw [b5, ← hd]; omega)]
  have ex := hE .X
  have ey := hE .Y
  have ez := hE .Z
  simp only [Grid.edges] at ex ey ez
  cases a; cases b
  simp only [Grid.mk.injEq] at *
  refine ⟨?_, ?_, hm, ex, ey, ez, ?_, ?_⟩
  · rw [a1, b1, hs]
  · rw [a2, b2, hh]
  · rw [a3, b3, hp]
  · rw [a4, b4, ht]

/-- Non-vacuity for C10: the demo grid before and after a fill. -/
example : ∃ g' : Grid ℚ, demoGrid.Reachable ∧ g'.Reachable ∧ demoGrid.size = g'.size ∧
    demoGrid.globalPos = g'.globalPos ∧ demoGrid.step = g'.step ∧ demoGrid.fill demoField demoSolver = some g' := by
  obtain ⟨g', e, ⟨h1, _, h3, h4⟩, -⟩ := C06_fill_materials demoGrid_reachable demoField demoSolver
  exact ⟨g', demoGrid_reachable, .fill demoGrid_reachable e, h1.symm, h3.symm, h4.symm, e⟩

end

section
variable {K : Type} [Field K] [LinearOrder K] [IsStrictOrderedRing K]

/-! ### C56 -/

/-- C56: `localToGlobal` and `globalToLocal` are mutually inverse for a nonzero step. -/
theorem C56_inverse (g : Grid K) (hstep : g.step ≠ 0) (q : Vec3 K) :
    g.globalToLocal (g.localToGlobal q) = q ∧ g.localToGlobal (g.globalToLocal q) = q := by
  constructor
  · ext <;> simp [Grid.globalToLocal, Grid.localToGlobal, hstep]
  · ext <;> simp [Grid.globalToLocal, Grid.localToGlobal, hstep]

/-- C56: the maps are affine: a lattice step of one unit is a global step of `gridStep`, the origin goes to the grid
position. -/
theorem C56_affine (g : Grid K) (p q : Vec3 K) :
    g.localToGlobal ⟨p.x + q.x, p.y + q.y, p.z + q.z⟩ =
      ⟨(g.localToGlobal p).x + g.step * q.x, (g.localToGlobal p).y + g.step * q.y,
        (g.localToGlobal p).z + g.step * q.z⟩ ∧
    g.localToGlobal ⟨0, 0, 0⟩ = g.globalPos := by
  constructor
  · ext <;> simp [Grid.localToGlobal] <;> ring
  · ext <;> simp [Grid.localToGlobal]

example : demoGrid.step ≠ 0 := by decide

end
end Isomesh
