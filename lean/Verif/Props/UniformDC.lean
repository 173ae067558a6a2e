import Verif.Proofs.UniformDC2
import Mathlib.Algebra.BigOperators.Group.Finset.Basic
import Mathlib.Tactic.LinearCombination

/-! Properties C18, C19, C20: dual contouring of a uniform grid. -/

namespace Isomesh
open Spec

set_option linter.unusedSectionVars false
variable {K : Type} [Add K] [_root_.Sub K] [Mul K] [Div K] [Neg K] [Zero K] [One K] [OfNat K 2] [OfScientific K] [NatCast K] [IntCast K]
  [Fabs K] [Elem K] [LinearOrder K] [RoundedLaws K]

/-! ### C18 -/

/-- C18.  Dual contouring of any consistent grid with a positive pseudo-inverse tolerance succeeds; the mesh has exactly
one vertex per cell with a sign change, listed in (Y, X, Z) order of the cells, and each is an acceptable vertex of
its cell (inside it, solution of the cell's minimisation problem, with a material of one of its solid corners); the
options of the solver passed in are left as they were. -/
theorem C18_vertices {env : DcEnv K} {g : Grid K} (h : Filled g) (hsort : IsSort env.srt) {solver : Qef K 3}
    (hpinv : 0 < solver.pinvTolerance) :
    (∃ cells, CellList g cells) ∧
    ∃ q r, dualContouring env g solver = some (q, r) ∧ r.globalPos = g.globalPos ∧ r.globalScale = g.step ∧
      SameOptions solver q ∧
      ∀ cells, CellList g cells → r.mesh.vertices.length = cells.length ∧
        ∀ (k : Nat) (P : IVec3), cells[k]? = some P → ∃ v, r.mesh.vertices[k]? = some v ∧ DualVertex env g solver P v := by
  refine ⟨⟨_, mcCells_cellList h⟩, ?_⟩
  obtain ⟨q, vs, h1, h2, h3⟩ := dc_result (env := env) h hsort hpinv (mcCells_cellList h)
  refine ⟨q, _, h1, rfl, rfl, h3, ?_⟩
  intro cells hc
  rw [CellList.unique hc (mcCells_cellList h)]
  refine ⟨h2.length_eq.symm, ?_⟩
  intro k P hk
  obtain ⟨hk', rfl⟩ := List.getElem?_eq_some_iff.1 hk
  have hk2 : k < vs.length := by rw [← h2.length_eq]; exact hk'
  exact ⟨vs[k], List.getElem?_eq_getElem hk2, (List.forall₂_iff_get.1 h2).2 k hk' hk2⟩

theorem run_planes_err {tiny : ℝ} (es : List (QefOp ℝ 3)) (p : VecN ℝ 3) (e0 : ℝ) (hadd : ∀ o ∈ es, ∃ a b, o = .addPlane a b) :
    es.foldl (fun e op => op.addTo p e) e0 = e0 + (es.map fun o => o.addTo p 0).sum := by
  induction es generalizing e0 with
  | nil => simp
  | cons o es ih =>
    obtain ⟨a, b, rfl⟩ := hadd o List.mem_cons_self
    rw [List.foldl_cons, ih _ (fun o ho => hadd o (List.mem_cons_of_mem _ ho))]
    simp [QefOp.addTo]
    ring

/-- C18, meaning of "solution": if the decomposition is exact, no compression meets a tiny column, and the vertex is
strictly inside its cell, then it minimises the sum of the squared distances to the planes of the cell's edges. -/
theorem C18_minimiser {tiny eps : ℝ} (ht : 0 < tiny) (es : List (GridEdge ℝ)) {q0 q1 q2 : Qef ℝ 3} {P : IVec3} {x : VecN ℝ 3}
    (hrun : runOps qef3Rows 30 tiny q0 (.reset :: es.map (planeOp eps)) = some q1)
    (hclean : CleanRun qef3Rows 30 tiny q0 (.reset :: es.map (planeOp eps))) (hcc : CompressClean tiny q1)
    (hs : q1.solve qef3Rows tiny (cellLo P) (cellHi P) = some (q2, x)) (hex : ExactDecomposition q2)
    (hin : ∀ i, cellLo P i < x i ∧ x i < cellHi P i) :
    ∀ y : VecN ℝ 3, (es.map fun e => planeErr e.surfacePoint.toVecN (edgeNormal eps e.gradient).toVecN x).sum ≤
      (es.map fun e => planeErr e.surfacePoint.toVecN (edgeNormal eps e.gradient).toVecN y).sum := by
  have hrun' : runOps qef3Rows 30 tiny q0.reset (es.map (planeOp eps)) = some q1 := by
    simp only [runOps, List.foldlM_cons, QefOp.apply, Option.bind_eq_bind, Option.bind_some] at hrun
    exact hrun
  have hinv : QInv qef3Rows q0.reset := ⟨by simp [Qef.reset], fun _ _ _ _ => rfl⟩
  obtain ⟨i, e⟩ := run_spec ht (by simp [qef3Rows]) _ hinv (hclean.2 _ rfl) hrun'
  have := solve_optimal ht i hcc hs hex hin
  have herr : ∀ p, qerr q1 p =
      (es.map fun e => planeErr e.surfacePoint.toVecN (edgeNormal eps e.gradient).toVecN p).sum := by
    intro p
    have h0 : qerr q0.reset p = 0 := by simp [qerr, Qef.reset]
    rw [e p, run_planes_err (tiny := tiny) _ p _ (by
      intro o ho; obtain ⟨e, -, rfl⟩ := List.mem_map.1 ho; exact ⟨_, _, rfl⟩), h0, zero_add, List.map_map]
    congr 1
    apply List.map_congr_left
    intro e _
    simp [planeOp, QefOp.addTo]
  intro y
  rw [← herr, ← herr]
  exact this.1 y

/-! ### C19 -/

/-- C19.  The triangles are exactly the quads (two triangles each) of the crossing edges whose four cells are all in the
grid, in storage order; all indices are valid and each triangle has three different vertices. -/
theorem C19_quads {env : DcEnv K} {g : Grid K} (h : Filled g) (hsort : IsSort env.srt) {solver : Qef K 3}
    (hpinv : 0 < solver.pinvTolerance) {q : Qef K 3} {r : PlacedMesh K} (hr : dualContouring env g solver = some (q, r))
    {cells : List IVec3} (hcells : CellList g cells) :
    r.mesh.indices.length = 3 * (triangles r.mesh.indices).length ∧
    triangles r.mesh.indices = (edgeList g).flatMap (edgeQuad g.maxCoord cells) ∧
    (∀ e ∈ edgeList g, InteriorEdge g.maxCoord e.axis e.lesser → ∀ c ∈ cellsAroundEdge e.axis e.lesser, c ∈ cells) ∧
    (∀ t ∈ triangles r.mesh.indices,
      t.1 < r.mesh.vertices.length ∧ t.2.1 < r.mesh.vertices.length ∧ t.2.2 < r.mesh.vertices.length ∧
      t.1 ≠ t.2.1 ∧ t.2.1 ≠ t.2.2 ∧ t.1 ≠ t.2.2) := by
  obtain ⟨q', vs, h1, h2, -⟩ := dc_result (env := env) h hsort hpinv hcells
  rw [hr] at h1
  cases h1
  dsimp only
  have hin : ∀ e ∈ edgeList g, InteriorEdge g.maxCoord e.axis e.lesser → ∀ c ∈ cellsAroundEdge e.axis e.lesser, c ∈ cells := by
    intro e he hint c hc
    exact (hcells.mem c).2 (interior_crossing (h.crossing ((mem_edgeList h).1 he)) hc (hint c hc))
  rw [triangles_flatTri]
  refine ⟨?_, rfl, hin, ?_⟩
  · generalize (edgeList g).flatMap (edgeQuad g.maxCoord cells) = ts
    induction ts with
    | nil => rfl
    | cons t ts ih =>
      simp only [flatTri, List.flatMap_cons, List.length_append, List.length_cons, List.length_nil] at *
      omega
  · intro t ht
    obtain ⟨e, he, ht⟩ := List.mem_flatMap.1 ht
    have hin' := hin e he
    unfold edgeQuad at ht
    split at ht
    · rename_i hall
      have hint : InteriorEdge g.maxCoord e.axis e.lesser := by
        intro c hc
        simpa [CellIn] using List.all_eq_true.1 hall c hc
      have hmem := hin' hint
      have hnd := around_nodup e.axis e.lesser
      obtain ⟨P0, P1, P2, P3, hP⟩ := around_list e.axis e.lesser
      rw [hP] at hmem hnd ht
      simp only [List.map_cons, List.map_nil] at ht
      simp only [List.mem_cons, List.not_mem_nil, or_false, forall_eq_or_imp, forall_eq] at hmem
      obtain ⟨m0, m1, m2, m3⟩ := hmem
      simp only [List.nodup_cons, List.mem_cons, List.not_mem_nil, or_false, not_or, List.nodup_nil, and_true] at hnd
      obtain ⟨⟨n01, n02, n03⟩, ⟨n12, n13⟩, n23, -⟩ := hnd
      have k01 := nodup_idxOf_ne m0 n01
      have k03 := nodup_idxOf_ne m0 n03
      have k12 := nodup_idxOf_ne m1 n12
      have k13 := nodup_idxOf_ne m1 n13
      have k23 := nodup_idxOf_ne m2 n23
      have l0 := List.idxOf_lt_length_of_mem m0
      have l1 := List.idxOf_lt_length_of_mem m1
      have l2 := List.idxOf_lt_length_of_mem m2
      have l3 := List.idxOf_lt_length_of_mem m3
      rw [h2.length_eq] at l0 l1 l2 l3
      unfold quadTriangles at ht
      split at ht <;> simp only [List.mem_cons, List.not_mem_nil, or_false] at ht <;>
        rcases ht with rfl | rfl <;> dsimp only <;> omega
    · cases ht

/-- Twice the area vector of a triangle. -/
def areaVec (a b c : Vec3 ℝ) : Vec3 ℝ :=
  ⟨(b.y - a.y) * (c.z - a.z) - (b.z - a.z) * (c.y - a.y), (b.z - a.z) * (c.x - a.x) - (b.x - a.x) * (c.z - a.z),
   (b.x - a.x) * (c.y - a.y) - (b.y - a.y) * (c.x - a.x)⟩

/-- A position lies in the closed unit cell at `P`. -/
def InCell (P : IVec3) (v : Vec3 ℝ) : Prop :=
  ∀ a, (P.get a : ℝ) ≤ v.get a ∧ v.get a ≤ P.get a + 1

/-- A position lies in the open unit cell at `P`. -/
def InCellStrict (P : IVec3) (v : Vec3 ℝ) : Prop :=
  ∀ a, (P.get a : ℝ) < v.get a ∧ v.get a < P.get a + 1

/-- C19, orientation: the quad of an edge, whatever the positions of its vertices inside their cells are, faces along
the edge from the solid to the empty end: the sum of the area vectors of its two triangles has a non-negative component
in that direction, a positive one when the vertices are strictly inside the cells. -/
theorem C19_facing (D : Axis) (p : IVec3) (P0 P1 P2 P3 : IVec3) (hP : cellsAroundEdge D p = [P0, P1, P2, P3])
    (v0 v1 v2 v3 : Vec3 ℝ) :
    (InCell P0 v0 → InCell P1 v1 → InCell P2 v2 → InCell P3 v3 →
      0 ≤ ((areaVec v0 v1 v3).add (areaVec v1 v2 v3)).get D ∧ ((areaVec v0 v3 v1).add (areaVec v1 v3 v2)).get D ≤ 0) ∧
    (InCellStrict P0 v0 → InCellStrict P1 v1 → InCellStrict P2 v2 → InCellStrict P3 v3 →
      0 < ((areaVec v0 v1 v3).add (areaVec v1 v2 v3)).get D ∧ ((areaVec v0 v3 v1).add (areaVec v1 v3 v2)).get D < 0) := by
  obtain ⟨x, y, z⟩ := p
  obtain ⟨x0, y0, z0⟩ := v0
  obtain ⟨x1, y1, z1⟩ := v1
  obtain ⟨x2, y2, z2⟩ := v2
  obtain ⟨x3, y3, z3⟩ := v3
  have hA : ∀ Q : Axis → Prop, (∀ a, Q a) ↔ Q .X ∧ Q .Y ∧ Q .Z :=
    fun Q => ⟨fun h => ⟨h _, h _, h _⟩, fun h a => by cases a; exacts [h.1, h.2.1, h.2.2]⟩
  cases D <;> simp only [cellsAroundEdge, List.cons.injEq, and_true, shift] at hP <;>
    obtain ⟨rfl, rfl, rfl, rfl⟩ := hP <;>
    simp only [InCell, InCellStrict, hA, Vec3.get, IVec3.get, areaVec, Vec3.add] <;> push_cast <;>
    refine ⟨?_, ?_⟩ <;> rintro ⟨⟨a1, a2⟩, ⟨a3, a4⟩, a5, a6⟩ ⟨⟨b1, b2⟩, ⟨b3, b4⟩, b5, b6⟩ ⟨⟨c1, c2⟩, ⟨c3, c4⟩, c5, c6⟩ ⟨⟨d1, d2⟩, ⟨d3, d4⟩, d5, d6⟩
  · have h1 : 0 ≤ y2 - y0 := by linarith
    have h2 : 0 ≤ z2 - z0 := by linarith
    have h3 : 0 ≤ y1 - y3 := by linarith
    have h4 : 0 ≤ z3 - z1 := by linarith
    have k1 := mul_nonneg h1 h4
    have k2 := mul_nonneg h2 h3
    constructor <;> nlinarith
  · have h1 : 0 < y2 - y0 := by linarith
    have h2 : 0 < z2 - z0 := by linarith
    have h3 : 0 < y1 - y3 := by linarith
    have h4 : 0 < z3 - z1 := by linarith
    have k1 := mul_pos h1 h4
    have k2 := mul_pos h2 h3
    constructor <;> nlinarith
  · have h1 : 0 ≤ z2 - z0 := by linarith
    have h2 : 0 ≤ x2 - x0 := by linarith
    have h3 : 0 ≤ z1 - z3 := by linarith
    have h4 : 0 ≤ x3 - x1 := by linarith
    have k1 := mul_nonneg h1 h4
    have k2 := mul_nonneg h2 h3
    constructor <;> nlinarith
  · have h1 : 0 < z2 - z0 := by linarith
    have h2 : 0 < x2 - x0 := by linarith
    have h3 : 0 < z1 - z3 := by linarith
    have h4 : 0 < x3 - x1 := by linarith
    have k1 := mul_pos h1 h4
    have k2 := mul_pos h2 h3
    constructor <;> nlinarith
  · have h1 : 0 ≤ x2 - x0 := by linarith
    have h2 : 0 ≤ y2 - y0 := by linarith
    have h3 : 0 ≤ x1 - x3 := by linarith
    have h4 : 0 ≤ y3 - y1 := by linarith
    have k1 := mul_nonneg h1 h4
    have k2 := mul_nonneg h2 h3
    constructor <;> nlinarith
  · have h1 : 0 < x2 - x0 := by linarith
    have h2 : 0 < y2 - y0 := by linarith
    have h3 : 0 < x1 - x3 := by linarith
    have h4 : 0 < y3 - y1 := by linarith
    have k1 := mul_pos h1 h4
    have k2 := mul_pos h2 h3
    constructor <;> nlinarith

/-! ### C20 -/

/-- Indicator of a directed side. -/
def ind {α : Type} [DecidableEq α] (x y a b : α) : Int := if x = a ∧ y = b then 1 else 0

theorem ind_swap {α : Type} [DecidableEq α] (x y a b : α) : ind x y a b = ind y x b a := by
  unfold ind; congr 1; rw [and_comm]

/-- Signed number of times the cycle `c0 c1 c2 c3` runs from `a` to `b`. -/
def cycleNet {α : Type} [DecidableEq α] (c0 c1 c2 c3 a b : α) : Int :=
  (ind c0 c1 a b + ind c1 c2 a b + ind c2 c3 a b + ind c3 c0 a b) -
  (ind c0 c1 b a + ind c1 c2 b a + ind c2 c3 b a + ind c3 c0 b a)

theorem count_cons_ind (x y a b : Nat) (l : List (Nat × Nat)) :
    ((((x, y) :: l).count (a, b) : Nat) : Int) = (l.count (a, b) : Int) + ind x y a b := by
  rw [List.count_cons]
  unfold ind
  by_cases h : x = a ∧ y = b
  · obtain ⟨rfl, rfl⟩ := h; simp
  · have : ((x, y) == (a, b)) = false := by simpa using h
    simp [this, h]

theorem quad_net (v0 v1 v2 v3 a b : Nat) (s : Bool) :
    ((sides (quadTriangles v0 v1 v2 v3 s)).count (a, b) : Int) - ((sides (quadTriangles v0 v1 v2 v3 s)).count (b, a) : Int) =
      (if s then 1 else -1) * cycleNet v0 v1 v2 v3 a b := by
  cases s <;> simp only [quadTriangles, Bool.false_eq_true, if_true, if_false, sides, List.flatMap_cons, List.flatMap_nil,
    List.cons_append, List.nil_append, count_cons_ind, List.count_nil, cycleNet] <;> push_cast
  · rw [ind_swap v0 v3 a b, ind_swap v1 v0 a b, ind_swap v3 v2 a b, ind_swap v2 v1 a b, ind_swap v3 v1 b a,
      ind_swap v0 v3 b a, ind_swap v1 v0 b a, ind_swap v3 v2 b a, ind_swap v2 v1 b a, ind_swap v3 v1 a b]
    ring
  · rw [ind_swap v3 v1 b a, ind_swap v3 v1 a b]
    ring

/-- Signed number of times the cells around an edge run from `P` to `Q`. -/
def cellNet (D : Axis) (p P Q : IVec3) : Int :=
  match cellsAroundEdge D p with
  | [c0, c1, c2, c3] => cycleNet c0 c1 c2 c3 P Q
  | _ => 0

theorem cellNet_swap (D : Axis) (p P Q : IVec3) : cellNet D p P Q = - cellNet D p Q P := by
  obtain ⟨a, b, c, d, h⟩ := around_list D p
  unfold cellNet
  rw [h]
  simp only [cycleNet]
  ring

/-- Unit step along an axis. -/
def step1 (P : IVec3) : Axis → IVec3
  | .X => shift P 1 0 0
  | .Y => shift P 0 1 0
  | .Z => shift P 0 0 1

/-- The four edges of the face of the cell `Q` towards the cell before it along the axis. -/
def faceEdges (Q : IVec3) : Axis → List LEdge
  | .X => [⟨.Y, Q⟩, ⟨.Y, shift Q 0 0 1⟩, ⟨.Z, Q⟩, ⟨.Z, shift Q 0 1 0⟩]
  | .Y => [⟨.X, Q⟩, ⟨.X, shift Q 0 0 1⟩, ⟨.Z, Q⟩, ⟨.Z, shift Q 1 0 0⟩]
  | .Z => [⟨.X, Q⟩, ⟨.X, shift Q 0 1 0⟩, ⟨.Y, Q⟩, ⟨.Y, shift Q 1 0 0⟩]

theorem ind_ne_zero {α : Type} [DecidableEq α] {x y a b : α} (h : ind x y a b ≠ 0) : a = x ∧ b = y := by
  unfold ind at h
  by_contra hc
  exact h (if_neg fun h => hc ⟨h.1.symm, h.2.symm⟩)

/-- Consecutive cells around an edge are neighbours across a face having this edge. -/
theorem cellNet_support {D : Axis} {p P Q : IVec3} (h : cellNet D p P Q ≠ 0) :
    ∃ A, (Q = step1 P A ∧ (⟨D, p⟩ : LEdge) ∈ faceEdges Q A) ∨ (P = step1 Q A ∧ (⟨D, p⟩ : LEdge) ∈ faceEdges P A) := by
  have key : ∀ P Q : IVec3, (∀ c0 c1 c2 c3, cellsAroundEdge D p = [c0, c1, c2, c3] →
        ind c0 c1 P Q + ind c1 c2 P Q + ind c2 c3 P Q + ind c3 c0 P Q ≠ 0) →
      ∃ A, (Q = step1 P A ∧ (⟨D, p⟩ : LEdge) ∈ faceEdges Q A) ∨ (P = step1 Q A ∧ (⟨D, p⟩ : LEdge) ∈ faceEdges P A) := by
    intro P Q h
    obtain ⟨x, y, z⟩ := p
    cases D
    all_goals
      have h := h _ _ _ _ rfl
      have h' : ∀ a b c d : Int, a + b + c + d ≠ 0 → a ≠ 0 ∨ b ≠ 0 ∨ c ≠ 0 ∨ d ≠ 0 := by intros; omega
      rcases h' _ _ _ _ h with h | h | h | h <;> obtain ⟨rfl, rfl⟩ := ind_ne_zero h
    · exact ⟨.Y, Or.inl (by simp [step1, faceEdges, shift])⟩
    · exact ⟨.Z, Or.inl (by simp [step1, faceEdges, shift])⟩
    · exact ⟨.Y, Or.inr (by simp [step1, faceEdges, shift])⟩
    · exact ⟨.Z, Or.inr (by simp [step1, faceEdges, shift])⟩
    · exact ⟨.Z, Or.inl (by simp [step1, faceEdges, shift])⟩
    · exact ⟨.X, Or.inl (by simp [step1, faceEdges, shift])⟩
    · exact ⟨.Z, Or.inr (by simp [step1, faceEdges, shift])⟩
    · exact ⟨.X, Or.inr (by simp [step1, faceEdges, shift])⟩
    · exact ⟨.X, Or.inl (by simp [step1, faceEdges, shift])⟩
    · exact ⟨.Y, Or.inl (by simp [step1, faceEdges, shift])⟩
    · exact ⟨.X, Or.inr (by simp [step1, faceEdges, shift])⟩
    · exact ⟨.Y, Or.inr (by simp [step1, faceEdges, shift])⟩
  obtain ⟨a, b, c, d, hl⟩ := around_list D p
  have hne : (ind a b P Q + ind b c P Q + ind c d P Q + ind d a P Q ≠ 0) ∨
      (ind a b Q P + ind b c Q P + ind c d Q P + ind d a Q P ≠ 0) := by
    by_contra hc
    simp only [not_or, not_not] at hc
    apply h
    unfold cellNet
    rw [hl]
    simp only [cycleNet, hc.1, hc.2, sub_zero]
  rcases hne with hne | hne
  · exact key P Q (fun c0 c1 c2 c3 e => by rw [hl] at e; cases e; exact hne)
  · obtain ⟨A, h | h⟩ := key Q P (fun c0 c1 c2 c3 e => by rw [hl] at e; cases e; exact hne)
    · exact ⟨A, Or.inr h⟩
    · exact ⟨A, Or.inl h⟩

theorem faceEdges_of_cells {P : IVec3} {A : Axis} {e : LEdge} (he : e ∈ faceEdges (step1 P A) A) :
    EdgeOfCell P e.axis e.at_ ∧ EdgeOfCell (step1 P A) e.axis e.at_ := by
  obtain ⟨x, y, z⟩ := P
  rw [← around_iff, ← around_iff]
  cases A <;> simp only [faceEdges, step1, shift, List.mem_cons, List.not_mem_nil, or_false] at he <;>
    rcases he with rfl | rfl | rfl | rfl <;> simp [cellsAroundEdge, shift, step1]

theorem faceEdges_nodup (Q : IVec3) (A : Axis) : (faceEdges Q A).Nodup := by
  obtain ⟨x, y, z⟩ := Q
  cases A <;> simp [faceEdges, shift]

/-- The telescoping sum around a face. -/
theorem face_telescope (σ : IVec3 → Int) (P : IVec3) (A : Axis) :
    ((faceEdges (step1 P A) A).map fun e => (σ e.at_ - σ (edgeEnd e.axis e.at_)) * cellNet e.axis e.at_ P (step1 P A)).sum
      = 0 := by
  obtain ⟨x, y, z⟩ := P
  cases A <;>
    simp [faceEdges, step1, cellNet, cellsAroundEdge, cycleNet, ind, shift, edgeEnd] <;> ring

theorem sum_support {α : Type} [DecidableEq α] {L S : List α} (hL : L.Nodup) (hS : S.Nodup) (f : α → Int)
    (h1 : ∀ x ∈ L, x ∉ S → f x = 0) (h2 : ∀ x ∈ S, x ∉ L → f x = 0) : (L.map f).sum = (S.map f).sum := by
  rw [← List.sum_toFinset f hL, ← List.sum_toFinset f hS]
  have e1 : ∑ x ∈ L.toFinset, f x = ∑ x ∈ L.toFinset ∩ S.toFinset, f x := by
    symm
    apply Finset.sum_subset Finset.inter_subset_left
    intro x hx hx'
    rw [Finset.mem_inter, not_and] at hx'
    exact h1 x (List.mem_toFinset.1 hx) (fun h => hx' hx (List.mem_toFinset.2 h))
  have e2 : ∑ x ∈ S.toFinset, f x = ∑ x ∈ L.toFinset ∩ S.toFinset, f x := by
    symm
    apply Finset.sum_subset Finset.inter_subset_right
    intro x hx hx'
    rw [Finset.mem_inter, not_and] at hx'
    exact h2 x (List.mem_toFinset.1 hx) (fun h => hx' (List.mem_toFinset.2 h) hx)
  rw [e1, e2]

/-- Solidity as a number. -/
def sigma (g : Grid K) (p : IVec3) : Int := if solidAt g p then 1 else 0

instance (h : Int) (D : Axis) (p : IVec3) : Decidable (InteriorEdge h D p) := by unfold InteriorEdge; infer_instance

/-- Contribution of a lattice edge to the net number of sides from `P` to `Q`. -/
def edgeNet (g : Grid K) (P Q : IVec3) (e : LEdge) : Int :=
  if InteriorEdge g.maxCoord e.axis e.at_ then
    (sigma g e.at_ - sigma g (edgeEnd e.axis e.at_)) * cellNet e.axis e.at_ P Q else 0

theorem edgeQuad_net {g : Grid K} (h : Filled g) {cells : List IVec3} (hcells : CellList g cells) {e : GridEdge K}
    (he : e ∈ edgeList g) {P Q : IVec3} (hP : P ∈ cells) (hQ : Q ∈ cells) :
    ((sides (edgeQuad g.maxCoord cells e)).count (cells.idxOf P, cells.idxOf Q) : Int) -
      ((sides (edgeQuad g.maxCoord cells e)).count (cells.idxOf Q, cells.idxOf P) : Int) =
      edgeNet g P Q (LEdge.ofGridEdge e) := by
  unfold edgeNet LEdge.ofGridEdge
  dsimp only
  have hcr := h.crossing ((mem_edgeList h).1 he)
  have hsol := h.edge_solid _ _ ((mem_edgeList h).1 he)
  by_cases hint : InteriorEdge g.maxCoord e.axis e.lesser
  · rw [if_pos hint]
    have hall : ((cellsAroundEdge e.axis e.lesser).all fun c => decide (∀ v ∈ cellVertices c, InCube g.maxCoord v)) = true := by
      rw [List.all_eq_true]; intro c hc; simpa [CellIn] using hint c hc
    have hmem : ∀ c ∈ cellsAroundEdge e.axis e.lesser, c ∈ cells := fun c hc =>
      (hcells.mem c).2 (interior_crossing hcr hc (hint c hc))
    unfold edgeQuad cellNet
    rw [hall, if_pos rfl]
    obtain ⟨P0, P1, P2, P3, hl⟩ := around_list e.axis e.lesser
    rw [hl] at hmem ⊢
    simp only [List.map_cons, List.map_nil]
    rw [quad_net]
    have hs : (if e.lesserSolid = true then (1 : Int) else -1) = sigma g e.lesser - sigma g (edgeEnd e.axis e.lesser) := by
      rw [hsol]
      have := hcr.2
      unfold sigma
      cases hA : solidAt g e.lesser <;> cases hB : solidAt g (edgeEnd e.axis e.lesser) <;> rw [hA, hB] at this <;> simp at this ⊢
    rw [hs]
    congr 1
    simp only [List.mem_cons, List.not_mem_nil, or_false, forall_eq_or_imp, forall_eq] at hmem
    obtain ⟨m0, m1, m2, m3⟩ := hmem
    have hi : ∀ {a b : IVec3}, a ∈ cells → (cells.idxOf a = cells.idxOf b ↔ a = b) := fun ha => List.idxOf_inj ha
    unfold cycleNet ind
    simp only [hi m0, hi m1, hi m2, hi m3]
  · rw [if_neg hint]
    have hall : ((cellsAroundEdge e.axis e.lesser).all fun c => decide (∀ v ∈ cellVertices c, InCube g.maxCoord v)) = false := by
      rw [← Bool.not_eq_true]
      intro hh
      exact hint (fun c hc => by simpa [CellIn] using List.all_eq_true.1 hh c hc)
    unfold edgeQuad
    rw [hall]
    simp [sides]

theorem count_flatMap_net (ts : List (GridEdge K)) (f : GridEdge K → List (Nat × Nat × Nat)) (a b : Nat) :
    ((sides (ts.flatMap f)).count (a, b) : Int) - ((sides (ts.flatMap f)).count (b, a) : Int) =
      (ts.map fun e => ((sides (f e)).count (a, b) : Int) - ((sides (f e)).count (b, a) : Int)).sum := by
  induction ts with
  | nil => simp [sides]
  | cons e ts ih =>
    have : sides ((e :: ts).flatMap f) = sides (f e) ++ sides (ts.flatMap f) := by simp [sides]
    rw [this, List.count_append, List.count_append, List.map_cons, List.sum_cons, ← ih]
    push_cast
    ring

/-- C20.  Each directed side of the mesh, from the vertex of cell `P` to the vertex of cell `Q`, occurs as often as its
reverse, unless `P` and `Q` have a common crossing edge on the border of the grid (some cell around it is missing): the
surface is closed and consistently oriented away from the border. -/
theorem C20_closed {env : DcEnv K} {g : Grid K} (h : Filled g) (hsort : IsSort env.srt) {solver : Qef K 3}
    (hpinv : 0 < solver.pinvTolerance) {q : Qef K 3} {r : PlacedMesh K} (hr : dualContouring env g solver = some (q, r))
    {cells : List IVec3} (hcells : CellList g cells) {a b : Nat} {P Q : IVec3} (ha : cells[a]? = some P)
    (hb : cells[b]? = some Q)
    (hborder : ¬ ∃ D p, CrossingEdge g D p ∧ ¬ InteriorEdge g.maxCoord D p ∧ EdgeOfCell P D p ∧ EdgeOfCell Q D p) :
    (sides (triangles r.mesh.indices)).count (a, b) = (sides (triangles r.mesh.indices)).count (b, a) := by
  obtain ⟨-, htri, -, -⟩ := C19_quads h hsort hpinv hr hcells
  rw [htri]
  have hidx : ∀ {k : Nat} {P : IVec3}, cells[k]? = some P → cells.idxOf P = k ∧ P ∈ cells := by
    intro k P hk
    obtain ⟨hk', rfl⟩ := List.getElem?_eq_some_iff.1 hk
    exact ⟨(CellList.nodup hcells).idxOf_getElem k hk', List.getElem_mem hk'⟩
  obtain ⟨rfl, hP⟩ := hidx ha
  obtain ⟨rfl, hQ⟩ := hidx hb
  have hPc := ((hcells.mem P).1 hP).1
  have hQc := ((hcells.mem Q).1 hQ).1
  have hnet := count_flatMap_net (edgeList g) (edgeQuad g.maxCoord cells) (cells.idxOf P) (cells.idxOf Q)
  have hmap : (edgeList g).map (fun e =>
      ((sides (edgeQuad g.maxCoord cells e)).count (cells.idxOf P, cells.idxOf Q) : Int) -
      ((sides (edgeQuad g.maxCoord cells e)).count (cells.idxOf Q, cells.idxOf P) : Int)) =
      ((edgeList g).map LEdge.ofGridEdge).map (edgeNet g P Q) := by
    rw [List.map_map]
    apply List.map_congr_left
    intro e he
    exact edgeQuad_net h hcells he hP hQ
  rw [hmap] at hnet
  have hnd : ((edgeList g).map LEdge.ofGridEdge).Nodup := by
    unfold List.Nodup
    rw [List.pairwise_map]
    exact edgeList_nodup h
  have hlist : ∀ e : LEdge, e ∉ (edgeList g).map LEdge.ofGridEdge → InteriorEdge g.maxCoord e.axis e.at_ →
      sigma g e.at_ - sigma g (edgeEnd e.axis e.at_) = 0 := by
    intro e he hint
    have hin : ∀ v ∈ edgeVertices e.axis e.at_, InCube g.maxCoord v := by
      intro v hv
      obtain ⟨c, _, _, _, hl⟩ := around_list e.axis e.at_
      have hc : c ∈ cellsAroundEdge e.axis e.at_ := by rw [hl]; simp
      exact hint c hc v (around_iff.1 hc v hv)
    have : ¬ CrossingEdge g e.axis e.at_ := by
      intro hc
      obtain ⟨e', he', hl⟩ := (h.edge_iff _ _).2 hc
      have hax := h.edge_axis _ _ he'
      apply he
      rw [List.mem_map]
      refine ⟨e', (mem_edgeList h).2 (by rw [hax]; exact he'), ?_⟩
      cases e; simp_all [LEdge.ofGridEdge]
    have : solidAt g e.at_ = solidAt g (edgeEnd e.axis e.at_) := by
      by_contra hc; exact this ⟨hin, hc⟩
    unfold sigma; rw [this]; ring
  -- the case of two neighbours
  have main : ∀ (P Q : IVec3) (A : Axis), Q = step1 P A → CellIn g.maxCoord P →
      (¬ ∃ D p, CrossingEdge g D p ∧ ¬ InteriorEdge g.maxCoord D p ∧ EdgeOfCell P D p ∧ EdgeOfCell Q D p) →
      (((edgeList g).map LEdge.ofGridEdge).map (edgeNet g P Q)).sum = 0 := by
    rintro P Q A rfl hPc hborder
    rw [sum_support hnd (faceEdges_nodup (step1 P A) A) (edgeNet g P (step1 P A))]
    · rw [← face_telescope (sigma g) P A]
      congr 1
      apply List.map_congr_left
      intro e he
      unfold edgeNet
      by_cases hint : InteriorEdge g.maxCoord e.axis e.at_
      · rw [if_pos hint]
      · rw [if_neg hint]
        obtain ⟨k1, k2⟩ := faceEdges_of_cells he
        have hne : ¬ CrossingEdge g e.axis e.at_ := fun hc => hborder ⟨_, _, hc, hint, k1, k2⟩
        have : solidAt g e.at_ = solidAt g (edgeEnd e.axis e.at_) := by
          by_contra hc
          exact hne ⟨fun v hv => hPc v (k1 v hv), hc⟩
        unfold sigma
        rw [this]
        ring
    · intro e _ he
      unfold edgeNet
      by_cases hint : InteriorEdge g.maxCoord e.axis e.at_
      · rw [if_pos hint]
        by_cases hz : cellNet e.axis e.at_ P (step1 P A) = 0
        · rw [hz, mul_zero]
        · obtain ⟨B, ⟨e1, e2⟩ | ⟨e1, e2⟩⟩ := cellNet_support hz
          · have : A = B := by
              obtain ⟨x, y, z⟩ := P
              cases A <;> cases B <;> simp [step1, shift] at e1 <;> rfl
            subst this
            exact absurd e2 he
          · exfalso
            obtain ⟨x, y, z⟩ := P
            cases A <;> cases B <;> simp [step1, shift] at e1 <;> omega
      · rw [if_neg hint]
    · intro e _ he
      unfold edgeNet
      by_cases hint : InteriorEdge g.maxCoord e.axis e.at_
      · rw [if_pos hint, hlist e he hint, zero_mul]
      · rw [if_neg hint]
  have hzero : (((edgeList g).map LEdge.ofGridEdge).map (edgeNet g P Q)).sum = 0 := by
    by_cases hadj : ∃ A, Q = step1 P A ∨ P = step1 Q A
    · obtain ⟨A, hA | hA⟩ := hadj
      · exact main P Q A hA hPc hborder
      · have := main Q P A hA hQc (fun ⟨D, p, a, b, c, d⟩ => hborder ⟨D, p, a, b, d, c⟩)
        have hneg : (edgeNet g P Q) = fun e => - edgeNet g Q P e := by
          funext e
          unfold edgeNet
          rw [cellNet_swap e.axis e.at_ P Q]
          split <;> ring
        have hs : ∀ l : List LEdge, (l.map fun e => - edgeNet g Q P e).sum = - (l.map (edgeNet g Q P)).sum := by
          intro l
          induction l with
          | nil => rfl
          | cons e l ih => rw [List.map_cons, List.map_cons, List.sum_cons, List.sum_cons, ih]; ring
        rw [hneg, hs, this]
        rfl
    · apply List.sum_eq_zero
      intro x hx
      obtain ⟨e, -, rfl⟩ := List.mem_map.1 hx
      unfold edgeNet
      by_cases hz : cellNet e.axis e.at_ P Q = 0
      · rw [hz]; simp
      · obtain ⟨A, ⟨e1, -⟩ | ⟨e1, -⟩⟩ := cellNet_support hz
        · exact absurd ⟨A, Or.inl e1⟩ hadj
        · exact absurd ⟨A, Or.inr e1⟩ hadj
  rw [hzero] at hnet
  omega

/-- C20, closed surfaces: if no crossing edge lies on the border of the grid, every directed side occurs as often as its
reverse. -/
theorem C20_closed_surface {env : DcEnv K} {g : Grid K} (h : Filled g) (hsort : IsSort env.srt) {solver : Qef K 3}
    (hpinv : 0 < solver.pinvTolerance) {q : Qef K 3} {r : PlacedMesh K} (hr : dualContouring env g solver = some (q, r))
    (hborder : ∀ D p, CrossingEdge g D p → InteriorEdge g.maxCoord D p) (a b : Nat) :
    (sides (triangles r.mesh.indices)).count (a, b) = (sides (triangles r.mesh.indices)).count (b, a) := by
  have hcells := mcCells_cellList h
  by_cases hab : a < (mcCells g).length ∧ b < (mcCells g).length
  · exact C20_closed h hsort hpinv hr hcells (List.getElem?_eq_getElem hab.1) (List.getElem?_eq_getElem hab.2)
      (fun ⟨D, p, hc, hn, _⟩ => hn (hborder D p hc))
  · obtain ⟨q', vs, h1, h2, -⟩ := dc_result (env := env) h hsort hpinv hcells
    obtain ⟨-, -, -, hv⟩ := C19_quads h hsort hpinv hr hcells
    rw [hr] at h1
    cases h1
    dsimp only at hv ⊢
    rw [← h2.length_eq] at hv
    have hz : ∀ x y, ¬ (x < (mcCells g).length ∧ y < (mcCells g).length) → (sides (triangles (flatTri
        ((edgeList g).flatMap (edgeQuad g.maxCoord (mcCells g)))))).count (x, y) = 0 := by
      intro x y hxy
      rw [List.count_eq_zero]
      intro hm
      obtain ⟨t, ht, hm⟩ := List.mem_flatMap.1 hm
      obtain ⟨l1, l2, l3, -⟩ := hv t ht
      simp only [List.mem_cons, List.not_mem_nil, or_false, Prod.mk.injEq] at hm
      apply hxy
      rcases hm with ⟨rfl, rfl⟩ | ⟨rfl, rfl⟩ | ⟨rfl, rfl⟩ <;> exact ⟨by assumption, by assumption⟩
    rw [hz a b hab, hz b a (by tauto)]

/-! ### A concrete case -/

/-- A ball of squared radius 1/2: on the grid of size 2 only the central vertex is solid. -/
noncomputable def ballField : ScalarField ℝ :=
  { value := fun p => p.x ^ 2 + p.y ^ 2 + p.z ^ 2 - 1 / 2, grad := fun p => ⟨2 * p.x, 2 * p.y, 2 * p.z⟩,
    material := fun _ _ => .Stone }

/-- Midpoint of the segment. -/
noncomputable def midSolver : ZeroFinder ℝ :=
  { findAlongX := fun x0 _ _ x1 _ _ _ => (x0 + x1) / 2, findAlongY := fun _ y0 _ y1 _ _ _ => (y0 + y1) / 2,
    findAlongZ := fun _ _ z0 z1 _ _ _ => (z0 + z1) / 2 }

theorem ball_value {x y z : Int} : ballField.value (worldPos ⟨0, 0, 0⟩ 1 ⟨x, y, z⟩) ≤ 0 ↔ x = 0 ∧ y = 0 ∧ z = 0 := by
  simp only [ballField, worldPos, zero_add, mul_one, one_mul]
  constructor
  · intro h
    have h' : ((x ^ 2 + y ^ 2 + z ^ 2 : Int) : ℝ) < 1 := by push_cast; linarith
    have h2 : x ^ 2 + y ^ 2 + z ^ 2 < 1 := by exact_mod_cast h'
    have hx := sq_nonneg x; have hy := sq_nonneg y; have hz := sq_nonneg z
    refine ⟨?_, ?_, ?_⟩ <;> apply pow_eq_zero_iff (two_ne_zero) |>.1 <;> omega
  · rintro ⟨rfl, rfl, rfl⟩; norm_num

/-- Non-vacuity of C18 - C20: a filled grid with a closed surface inside it, a sorting function, and the default
solver. -/
theorem ball_case : ∃ g : Grid ℝ, Filled g ∧ CrossingEdge g .X ⟨0, 0, 0⟩ ∧ CrossingCell g ⟨-1, -1, -1⟩ ∧
    (∀ D p, CrossingEdge g D p → InteriorEdge g.maxCoord D p) ∧
    (∃ srt : List (DcEntry ℝ) → List (DcEntry ℝ), IsSort srt) ∧ 0 < (Qef.new3 : Qef ℝ 3).pinvTolerance := by
  obtain ⟨g0, h0⟩ : ∃ g0, Grid.mk' 2 (⟨0, 0, 0⟩ : Vec3 ℝ) 1 = .ok g0 := ⟨_, rfl⟩
  have hr : g0.Reachable := .mk h0
  have hmax : g0.maxCoord = 1 := by cases h0; rfl
  have hpos : g0.globalPos = ⟨0, 0, 0⟩ := by cases h0; rfl
  have hst : g0.step = 1 := by cases h0; rfl
  obtain ⟨g, e, ⟨hs, hh, -, -⟩, hm⟩ := C06_fill_materials hr ballField midSolver
  have hf : Filled g := C07_filled hr (by intro q _; show Material.Stone ≠ Material.Empty; decide) e
  have hmax' : g.maxCoord = 1 := by rw [← hmax]; exact hh
  have hsol : ∀ x y z, InCube 1 ⟨x, y, z⟩ → (solidAt g ⟨x, y, z⟩ = true ↔ x = 0 ∧ y = 0 ∧ z = 0) := by
    intro x y z hp
    have := hm ⟨x, y, z⟩ (by rw [hmax]; exact hp)
    unfold solidAt
    rw [this, hpos, hst]
    simp only [vertexMaterial_le]
    by_cases hv : ballField.value (worldPos ⟨0, 0, 0⟩ 1 ⟨x, y, z⟩) ≤ 0
    · rw [if_pos hv]
      simp only [ballField]
      have := ball_value.1 hv
      simp [this]
    · rw [if_neg hv]
      have := fun h => hv (ball_value.2 h)
      simpa using this
  have hx : CrossingEdge g .X ⟨0, 0, 0⟩ := by
    refine ⟨by rw [hmax']; decide, ?_⟩
    intro hc
    have h1 := (hsol 0 0 0 (by decide)).2 ⟨rfl, rfl, rfl⟩
    rw [hc] at h1
    have := (hsol 1 0 0 (by decide)).1 h1
    omega
  have hx' : CrossingEdge g .X ⟨-1, 0, 0⟩ := by
    refine ⟨by rw [hmax']; decide, ?_⟩
    intro hc
    have h1 := (hsol 0 0 0 (by decide)).2 ⟨rfl, rfl, rfl⟩
    have hc' : solidAt g ⟨-1, 0, 0⟩ = solidAt g ⟨0, 0, 0⟩ := hc
    rw [← hc'] at h1
    have := (hsol (-1) 0 0 (by decide)).1 h1
    omega
  refine ⟨g, hf, hx, ⟨?_, .X, ⟨-1, 0, 0⟩, hx', ?_⟩, ?_, ?_, ?_⟩
  · rw [hmax']; unfold CellIn; decide
  · unfold EdgeOfCell; decide
  · rintro D ⟨x, y, z⟩ ⟨hin, hc⟩
    rw [hmax'] at hin ⊢
    have h1 := hin ⟨x, y, z⟩ (by cases D <;> simp [edgeVertices])
    have h2 := hin (edgeEnd D ⟨x, y, z⟩) (by cases D <;> simp [edgeVertices, edgeEnd])
    have k1 := hsol x y z h1
    have k2 : solidAt g (edgeEnd D ⟨x, y, z⟩) = true ↔ _ := hsol _ _ _ h2
    have hor : (x = 0 ∧ y = 0 ∧ z = 0) ∨ ((edgeEnd D ⟨x, y, z⟩).x = 0 ∧ (edgeEnd D ⟨x, y, z⟩).y = 0 ∧ (edgeEnd D ⟨x, y, z⟩).z = 0) := by
      by_contra hcon
      rw [not_or] at hcon
      apply hc
      rw [Bool.eq_false_iff.2 (fun h => hcon.1 (k1.1 h)), Bool.eq_false_iff.2 (fun h => hcon.2 (k2.1 h))]
    intro c hcell
    rw [cellIn_iff]
    cases D <;> simp only [cellsAroundEdge, shift, List.mem_cons, List.not_mem_nil, or_false] at hcell <;>
      simp only [edgeEnd, shift] at hor <;> rcases hcell with rfl | rfl | rfl | rfl <;> simp only <;> omega
  · refine ⟨fun l => l.mergeSort (fun a b => decide (a.cellIndex ≤ b.cellIndex)), fun l => ⟨List.mergeSort_perm _ _, ?_⟩⟩
    have := List.pairwise_mergeSort (le := fun a b : (DcEntry ℝ) => decide (a.cellIndex ≤ b.cellIndex))
      (by intro a b c; simp only [decide_eq_true_eq]; omega) (by intro a b; simp only [Bool.or_eq_true, decide_eq_true_eq]; omega) l
    exact this.imp (by intro a b h; simpa using h)
  · simp only [Qef.new3]; norm_num

end Isomesh
