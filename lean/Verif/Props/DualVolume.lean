import Verif.Spec.DualVolume
import Verif.Proofs.DualVolume
import Verif.Props.DualHausdorff
import Verif.Props.Convergence
import Verif.Props.DcClosed
import Verif.Props.MdcClosed

/-! C95: the volume of the meshes of the dual methods. -/

namespace Isomesh
open Spec Set

variable {f : ScalarField ℝ} {sv : ZeroFinder ℝ} {origin : Vec3 ℝ} {step : ℝ}

/-- A mesh made of one quad for each crossed edge the cells around which are in a region. -/
structure DualMesh (f : ScalarField ℝ) (r : PlacedMesh ℝ) (origin : Vec3 ℝ) (step : ℝ) (In : IVec3 → Prop) (es : List LEdge)
    (Q : LEdge → List (Nat × Nat × Nat)) (v : LEdge → Fin 4 → Nat) (cell : Nat → IVec3) : Prop where
  nodup : es.Nodup
  mem : ∀ e : LEdge, e ∈ es ↔ Crosses f (worldPos origin step) e.axis e.at_ ∧ ∀ P ∈ cellsAroundEdge e.axis e.at_, In P
  quad : ∀ e ∈ es, QuadOf (v e) (decide (f.value (worldPos origin step e.at_) ≤ 0)) (Q e)
  cells : ∀ e ∈ es, cellsAroundEdge e.axis e.at_ = [cell (v e 0), cell (v e 1), cell (v e 2), cell (v e 3)]
  vert : ∀ e ∈ es, ∀ i, ∃ a, r.mesh.vertices[v e i]? = some a ∧ InClosedCell origin step (cell (v e i)) (meshToWorld r a.position)
  tris : triangles r.mesh.indices = es.flatMap Q

theorem world_inCell (hstep : 0 < step) {r : PlacedMesh ℝ} (r1 : r.globalPos = origin) (r2 : r.globalScale = step) {P : IVec3} {q : Vec3 ℝ}
    (h : InCell P q) : InClosedCell origin step P (meshToWorld r q) := by
  intro a
  obtain ⟨h1, h2⟩ := h a
  rw [meshToWorld_get, r1, r2]
  constructor <;> nlinarith

/-- The two triangles of a quadrilateral, cut along one of its diagonals, up to orientation. -/
def HasHalf (ts : List (Nat × Nat × Nat)) (a b c : Nat) : Prop := (a, b, c) ∈ ts ∨ (a, c, b) ∈ ts

/-- The triangles cover the quadrilateral. -/
def CoversQuad (v : Fin 4 → Nat) (ts : List (Nat × Nat × Nat)) : Prop :=
  (HasHalf ts (v 0) (v 1) (v 3) ∧ HasHalf ts (v 1) (v 2) (v 3)) ∨ (HasHalf ts (v 0) (v 1) (v 2) ∧ HasHalf ts (v 0) (v 2) (v 3))

theorem covers_quad (v : Fin 4 → Nat) (b : Bool) : CoversQuad v (quadTriangles (v 0) (v 1) (v 2) (v 3) b) := by
  unfold CoversQuad HasHalf quadTriangles
  cases b <;> simp

theorem covers_unit (v : Fin 4 → Nat) (b : Bool) :
    CoversQuad v (if b then [(v 0, v 1, v 2), (v 0, v 2, v 3)] else [(v 0, v 2, v 1), (v 0, v 3, v 2)]) := by
  unfold CoversQuad HasHalf
  cases b <;> simp

/-- The mesh of uniform dual contouring, with its vertices. -/
theorem uniform_solved {g g' : Grid ℝ} (hg : g.Reachable) (hstep : 0 < g.step) (hp : ProperField f) (h : g.fill f sv = some g')
    {env : DcEnv ℝ} (hsort : IsSort env.srt) {solver q : Qef ℝ 3} (hpinv : 0 < solver.pinvTolerance)
    {r : PlacedMesh ℝ} (hr : dualContouring env g' solver = some (q, r)) :
    ∃ es Q v cell, DualMesh f r g.globalPos g.step (CellIn g.maxCoord) es Q v cell ∧
      ∀ e ∈ es, CoversQuad (v e) (Q e) ∧ ∀ i, ∃ a, r.mesh.vertices[v e i]? = some a ∧ DualVertex env g' solver (cell (v e i)) a := by
  have hF := C07_filled hg hp h
  obtain ⟨g'', hfill, ⟨-, hhalf, hpos, hst⟩, -⟩ := C06_fill_materials hg f sv
  rw [h] at hfill; cases hfill
  have hm : g'.maxCoord = g.maxCoord := hhalf
  obtain ⟨⟨cells, hcells⟩, q', r', hr', r1, r2, -, hv⟩ := C18_vertices (env := env) hF hsort hpinv
  rw [hr] at hr'; cases hr'
  obtain ⟨-, htri, hin, -⟩ := C19_quads hF hsort hpinv hr hcells
  obtain ⟨hvl, hv⟩ := hv cells hcells
  rw [hpos] at r1
  rw [hst] at r2
  let inner : GridEdge ℝ → Bool := fun e => (cellsAroundEdge e.axis e.lesser).all (fun c => decide (∀ v ∈ cellVertices c, InCube g'.maxCoord v))
  have hinner : ∀ e, inner e = true ↔ InteriorEdge g'.maxCoord e.axis e.lesser := by
    intro e
    simp only [inner, List.all_eq_true, decide_eq_true_eq]
    rfl
  have hrec : ∀ e ∈ edgeList g', Crosses f (worldPos g.globalPos g.step) e.axis e.lesser ∧
      e.lesserSolid = decide (f.value (worldPos g.globalPos g.step e.lesser) ≤ 0) := by
    intro e he
    have hmem := (mem_edgeList hF).1 he
    obtain ⟨p, hin', hcr, hrec⟩ := ((C07_fill_edges hg h e.axis).1 e).1 hmem
    have hpl : e.lesser = p := by rw [hrec]; rfl
    refine ⟨by rw [hpl]; exact hcr, ?_⟩
    rw [hpl, hF.edge_solid _ _ hmem, hpl]
    exact solidAt_fill hg hp h (by rw [hm]; exact (edgeVertices_iff.1 hin').1)
  let v : LEdge → Fin 4 → Nat := fun e i => cells.idxOf (Spec.edgeCorner e.axis e.at_ 1 i)
  let Q : LEdge → List (Nat × Nat × Nat) := fun e =>
    quadTriangles (v e 0) (v e 1) (v e 2) (v e 3) (decide (f.value (worldPos g.globalPos g.step e.at_) ≤ 0))
  have hmem : ∀ e : LEdge, e ∈ ((edgeList g').filter inner).map LEdge.ofGridEdge ↔
      Crosses f (worldPos g.globalPos g.step) e.axis e.at_ ∧ ∀ P ∈ cellsAroundEdge e.axis e.at_, CellIn g.maxCoord P := by
    intro e
    rw [List.mem_map]
    constructor
    · rintro ⟨x, hx, rfl⟩
      obtain ⟨hx1, hx2⟩ := List.mem_filter.1 hx
      exact ⟨(hrec x hx1).1, by rw [← hm]; exact (hinner x).1 hx2⟩
    · rintro ⟨hcr, hint⟩
      obtain ⟨D, p⟩ := e
      rw [← hm] at hint
      have hce := crossing_of_crosses hg hp h hint hcr
      have hmem : edgeRecord f sv (worldPos g.globalPos g.step) g.step D p ∈ g'.edges D :=
        ((C07_fill_edges hg h D).1 _).2 ⟨p, by rw [← hm]; exact hce.1, hcr, rfl⟩
      have hax := hF.edge_axis D _ hmem
      have hles : (edgeRecord f sv (worldPos g.globalPos g.step) g.step D p).lesser = p := rfl
      refine ⟨_, List.mem_filter.2 ⟨(mem_edgeList hF).2 (by rw [hax]; exact hmem), (hinner _).2 ?_⟩, ?_⟩
      · rw [hax, hles]
        exact hint
      · unfold LEdge.ofGridEdge
        rw [hax, hles]
  have hcm : ∀ e ∈ ((edgeList g').filter inner).map LEdge.ofGridEdge, ∀ i, Spec.edgeCorner e.axis e.at_ 1 i ∈ cells := by
    intro e he i
    obtain ⟨x, hx, rfl⟩ := List.mem_map.1 he
    obtain ⟨hx1, hx2⟩ := List.mem_filter.1 hx
    refine hin x hx1 ((hinner x).1 hx2) _ ?_
    rw [edgeCorner_cells]
    simp only [LEdge.ofGridEdge]
    fin_cases i <;> simp
  have hcellv : ∀ e ∈ ((edgeList g').filter inner).map LEdge.ofGridEdge, ∀ i, cells.getD (v e i) ⟨0, 0, 0⟩ = Spec.edgeCorner e.axis e.at_ 1 i := by
    intro e he i
    have := hcm e he i
    simp only [v]
    rw [List.getD_eq_getElem?_getD, List.getElem?_eq_getElem (List.idxOf_lt_length_of_mem this), List.getElem_idxOf]
    rfl
  refine ⟨((edgeList g').filter inner).map LEdge.ofGridEdge, Q, v, fun n => cells.getD n ⟨0, 0, 0⟩, ⟨?_, hmem, ?_, ?_, ?_, ?_⟩, ?_⟩
  · exact List.pairwise_map.2 ((edgeList_nodup hF).filter _)
  · intro e _
    exact quadOf_quad (v e) _
  · intro e he
    simp only [hcellv e he]
    exact edgeCorner_cells _ _
  · intro e he i
    have hc := hcm e he i
    have hlt := List.idxOf_lt_length_of_mem hc
    obtain ⟨a, ha, hd⟩ := hv (v e i) _ (by simp only [v]; rw [List.getElem?_eq_getElem hlt, List.getElem_idxOf])
    refine ⟨a, ha, ?_⟩
    simp only [hcellv e he]
    exact world_inCell hstep r1 r2 (dual_inCell hd)
  · rw [htri]
    have hq : ∀ L : List (GridEdge ℝ), (∀ e ∈ L, e ∈ edgeList g') →
        L.flatMap (edgeQuad g'.maxCoord cells) = ((L.filter inner).map LEdge.ofGridEdge).flatMap Q := by
      intro L hL
      induction L with
      | nil => rfl
      | cons e L ih =>
        rw [List.flatMap_cons, ih fun x hx => hL x (List.mem_cons_of_mem _ hx)]
        by_cases hi : inner e = true
        · rw [List.filter_cons_of_pos hi, List.map_cons, List.flatMap_cons]
          congr 1
          unfold edgeQuad
          rw [if_pos hi, edgeCorner_cells, (hrec e (hL e List.mem_cons_self)).2]
          rfl
        · rw [List.filter_cons_of_neg hi]
          unfold edgeQuad
          rw [if_neg hi]
          rfl
    exact hq _ fun e he => he
  · intro e he
    refine ⟨covers_quad (v e) _, fun i => ?_⟩
    have hc := hcm e he i
    have hlt := List.idxOf_lt_length_of_mem hc
    obtain ⟨a, ha, hd⟩ := hv (v e i) _ (by simp only [v]; rw [List.getElem?_eq_getElem hlt, List.getElem_idxOf])
    refine ⟨a, ha, ?_⟩
    simp only [hcellv e he]
    exact hd

/-- The mesh of uniform dual contouring. -/
theorem uniform_dual {g g' : Grid ℝ} (hg : g.Reachable) (hstep : 0 < g.step) (hp : ProperField f) (h : g.fill f sv = some g')
    {env : DcEnv ℝ} (hsort : IsSort env.srt) {solver q : Qef ℝ 3} (hpinv : 0 < solver.pinvTolerance)
    {r : PlacedMesh ℝ} (hr : dualContouring env g' solver = some (q, r)) :
    ∃ es Q v cell, DualMesh f r g.globalPos g.step (CellIn g.maxCoord) es Q v cell := by
  obtain ⟨es, Q, v, cell, hD, -⟩ := uniform_solved hg hstep hp h hsort hpinv hr
  exact ⟨es, Q, v, cell, hD⟩

theorem quadOf_unit (v : Fin 4 → Nat) (b : Bool) :
    QuadOf v b (if b then [(v 0, v 1, v 2), (v 0, v 2, v 3)] else [(v 0, v 2, v 1), (v 0, v 3, v 2)]) := by
  constructor
  · intro t ht
    split_ifs at ht <;> simp only [List.mem_cons, List.not_mem_nil, or_false] at ht <;> rcases ht with rfl | rfl <;> exact ⟨⟨_, rfl⟩, ⟨_, rfl⟩, ⟨_, rfl⟩⟩
  · split_ifs <;> simp
  · right
    intro pos
    cases b <;> simp only [sixVol, Bool.false_eq_true, if_false, if_true, List.map_cons, List.map_nil, List.sum_cons, List.sum_nil] <;>
      unfold tripleProduct Vec3.dot Vec3.cross <;> dsimp only <;> ring

/-- The mesh of an unsimplified DC octree, with its vertices. -/
theorem octree_solved {g g' : Grid ℝ} (hg : g.Reachable) (hstep : 0 < g.step) (hp : ProperField f) (h : g.fill f sv = some g')
    {env : DcEnv ℝ} {o o' o'' : DcOctree ℝ} {solver q' : Qef ℝ 3} (hpinv : 0 < solver.pinvTolerance) {epsilon : ℝ}
    (ho1 : o.globalPos = g.globalPos) (ho2 : o.globalScale = g.step) (hin : CubeIn g'.maxCoord (rootCube o.level))
    (hb : o.build env g' solver epsilon false = some (q', o'))
    {r : PlacedMesh ℝ} (hc : o'.contour = some (r, o'')) :
    ∃ es Q v cell, DualMesh f r g.globalPos g.step (rootCube o.level).Has es Q v cell ∧
      ∀ e ∈ es, CoversQuad (v e) (Q e) ∧ ∀ i, ∃ a, r.mesh.vertices[v e i]? = some a ∧ DualVertex env g' solver (cell (v e i)) a := by
  have hF := C07_filled hg hp h
  obtain ⟨q1, o1, o2, r', cells, edges, hb', hc', hnd, hcells, hverts, hend, hedges, hem, htri⟩ :=
    C23_unsimplified (env := env) hF o (solver := solver) epsilon hin hpinv
  rw [hb] at hb'; cases hb'
  obtain ⟨r'', o3, visits, hc'', r1, r2, -⟩ := C22_contour hF hin hb
  rw [hc] at hc' hc''; cases hc'; cases hc''
  rw [ho1] at r1
  rw [ho2] at r2
  let v : LEdge → Fin 4 → Nat := fun e i => cells.idxOf ⟨Spec.edgeCorner e.axis e.at_ 1 i, 0⟩
  let Q : LEdge → List (Nat × Nat × Nat) := fun e => unitQuad g' cells e.axis e.at_
  let E : Axis × IVec3 → LEdge := fun x => ⟨x.1, x.2⟩
  have hE : ∀ e : LEdge, e ∈ edges.map E ↔ (e.axis, e.at_) ∈ edges := by
    intro e
    rw [List.mem_map]
    constructor
    · rintro ⟨x, hx, rfl⟩
      exact hx
    · intro hx
      exact ⟨_, hx, rfl⟩
  have hcm : ∀ e ∈ edges.map E, ∀ i, (⟨Spec.edgeCorner e.axis e.at_ 1 i, 0⟩ : Cube) ∈ cells := by
    intro e he i
    refine hem _ _ ((hE e).1 he) _ ?_
    rw [edgeCorner_cells]
    fin_cases i <;> simp
  have hcellv : ∀ e ∈ edges.map E, ∀ i, (cells.getD (v e i) ⟨⟨0, 0, 0⟩, 0⟩).lo = Spec.edgeCorner e.axis e.at_ 1 i := by
    intro e he i
    have := hcm e he i
    simp only [v]
    rw [List.getD_eq_getElem?_getD, List.getElem?_eq_getElem (List.idxOf_lt_length_of_mem this), List.getElem_idxOf]
    rfl
  refine ⟨edges.map E, Q, v, fun n => (cells.getD n ⟨⟨0, 0, 0⟩, 0⟩).lo, ⟨?_, ?_, ?_, ?_, ?_, ?_⟩, ?_⟩
  · refine List.Nodup.map ?_ hend
    rintro ⟨a, b⟩ ⟨c, d⟩ e
    simp only [E, LEdge.mk.injEq] at e
    rw [e.1, e.2]
  · intro e
    rw [hE, hedges]
    constructor
    · rintro ⟨h1, h2⟩
      exact ⟨crosses_of_crossing hg hp h h1, h2⟩
    · rintro ⟨h1, h2⟩
      exact ⟨crossing_of_crosses hg hp h (fun P hP => cubeIn_has hin (h2 P hP)) h1, h2⟩
  · intro e he
    have hcr := ((hedges _ _).1 ((hE e).1 he)).1
    have hs := solidAt_fill hg hp h (edgeVertices_iff.1 hcr.1).1
    simp only [Q]
    unfold unitQuad
    rw [edgeCorner_cells, hs]
    exact quadOf_unit (v e) _
  · intro e he
    simp only [hcellv e he]
    exact edgeCorner_cells _ _
  · intro e he i
    have hc := hcm e he i
    have hlt := List.idxOf_lt_length_of_mem hc
    have hlt2 : v e i < r.mesh.vertices.length := by rw [← hverts.length_eq]; exact hlt
    have hd := (List.forall₂_iff_get.1 hverts).2 _ hlt hlt2
    simp only [List.get_eq_getElem, List.getElem_idxOf] at hd
    refine ⟨_, List.getElem?_eq_getElem hlt2, ?_⟩
    simp only [hcellv e he]
    exact world_inCell hstep r1 r2 (dual_inCell hd)
  · rw [htri, List.flatMap_map]
  · intro e he
    refine ⟨?_, fun i => ?_⟩
    · simp only [Q]
      unfold unitQuad
      rw [edgeCorner_cells]
      exact covers_unit (v e) _
    have hc := hcm e he i
    have hlt := List.idxOf_lt_length_of_mem hc
    have hlt2 : v e i < r.mesh.vertices.length := by rw [← hverts.length_eq]; exact hlt
    have hd := (List.forall₂_iff_get.1 hverts).2 _ hlt hlt2
    simp only [List.get_eq_getElem, List.getElem_idxOf] at hd
    refine ⟨_, List.getElem?_eq_getElem hlt2, ?_⟩
    simp only [hcellv e he]
    exact hd

/-- The mesh of an unsimplified DC octree. -/
theorem octree_dual {g g' : Grid ℝ} (hg : g.Reachable) (hstep : 0 < g.step) (hp : ProperField f) (h : g.fill f sv = some g')
    {env : DcEnv ℝ} {o o' o'' : DcOctree ℝ} {solver q' : Qef ℝ 3} (hpinv : 0 < solver.pinvTolerance) {epsilon : ℝ}
    (ho1 : o.globalPos = g.globalPos) (ho2 : o.globalScale = g.step) (hin : CubeIn g'.maxCoord (rootCube o.level))
    (hb : o.build env g' solver epsilon false = some (q', o'))
    {r : PlacedMesh ℝ} (hc : o'.contour = some (r, o'')) :
    ∃ es Q v cell, DualMesh f r g.globalPos g.step (rootCube o.level).Has es Q v cell := by
  obtain ⟨es, Q, v, cell, hD, -⟩ := octree_solved hg hstep hp h hpinv ho1 ho2 hin hb hc
  exact ⟨es, Q, v, cell, hD⟩

theorem fit_has {env : DcEnv ℝ} {g : Grid ℝ} {options : Qef ℝ 3} {c : Cube} {X : Set CellCrossing} {w : FitVertex ℝ}
    (hf : VertexFit env g options c X w) : ∀ x ∈ X, c.Has x.cell := by
  induction hf with
  | @cell P X w es q1 ps h1 =>
    intro x hx
    obtain ⟨y, hy, hX⟩ := h1
    rw [((hX x).1 hx).1]
    exact has_unit P
  | @node c X w kids q1 h1 h2 h3 h4 h5 h6 h7 h8 h9 ih =>
    intro x hx
    obtain ⟨k, hk, hxk⟩ := (h5 x).1 hx
    exact cubeSub_has (dyadic_sub (h3 k hk).1) (ih k hk x hxk)

/-- The mesh of an MDC octree for a negative error bound., with the vertices. -/
theorem mdc_solved {g g' : Grid ℝ} (hg : g.Reachable) (hstep : 0 < g.step) (hp : ProperField f) (h : g.fill f sv = some g')
    {env : DcEnv ℝ} {o o' o1 o2 : MdcOctree ℝ} {solver q' : Qef ℝ 3}
    (ho1 : o.globalPos = g.globalPos) (ho2 : o.globalScale = g.step) (hin : CubeIn g'.maxCoord (rootCube o.level))
    (hsz : 4 * crossingCells g' (rootCube o.level) + 3 < 2 ^ 32)
    (hb : o.build env g' solver = some (q', o')) {bounds : List ℝ} (h1 : contourAll o' bounds = some o1) {ε : ℝ} (hε : ε < 0)
    {r : PlacedMesh ℝ} (h2 : o1.contour ε = some (r, o2)) :
    ∃ es Q v cell, DualMesh f r g.globalPos g.step (rootCube o.level).Has es Q v cell ∧
      ∀ e ∈ es, (∃ b, Q e = octQuad (v e 0) (v e 1) (v e 2) (v e 3) b) ∧
        ∀ i, ∃ a X w, r.mesh.vertices[v e i]? = some a ∧ VertexFit env g' solver ⟨cell (v e i), 0⟩ X w ∧ a.position = w.position := by
  have hF := C07_filled hg hp h
  have hsc : o.globalScale ≠ 0 := by rw [ho2]; exact hstep.ne'
  obtain ⟨M, V, hS, hall⟩ := C28_contour hF hin hsz (mul_self_pos.2 hsc) hb
  obtain ⟨o1', e1, e2⟩ := hall bounds
  rw [h1] at e1; cases e1
  obtain ⟨o2', e3⟩ := e2 ε
  rw [h2] at e3; cases e3
  obtain ⟨es, hnd, hes, htri⟩ := (hS.mesh ε).quads
  have hcellOf : ∀ n, ∃ c : IVec3, ∀ v, (M ε).vertices[n]? = some v → InCell c v.position ∧
      (∃ X w, VertexFit env g' solver ⟨c, 0⟩ X w ∧ v.position = w.position) ∧ ∀ x : CellCrossing, x.In g' (rootCube o.level) → V ε x = n → x.cell = c := by
    intro n
    rcases hvn : (M ε).vertices[n]? with _ | v
    · exact ⟨⟨0, 0, 0⟩, fun v hv => by simp at hv⟩
    obtain ⟨c, w, hd, hw, hvw, -, hfit⟩ := hS.fit ε n v hvn
    have hcl : c.ClosedR v.position := by
      obtain ⟨q1, hq⟩ := fit_box hw
      rw [hvw]; exact box_closed hq
    have hhas := fit_has hw
    have hk : c.k = 0 := by
      rcases hfit with hk | hwe
      · exact hk
      · obtain ⟨q1, hq⟩ := fit_box hw
        have := box_error hq
        have : ε / (o.globalScale * o.globalScale) < 0 := div_neg_of_neg_of_pos hε (mul_self_pos.2 hsc)
        linarith
    refine ⟨c.lo, fun v' hv' => ?_⟩
    cases hv'
    have hce : c = (⟨c.lo, 0⟩ : Cube) := by rw [← hk]
    refine ⟨fun A => ?_, ⟨_, w, hce ▸ hw, by rw [hvw]⟩, fun x hx e => ?_⟩
    · have := cubeR_get hcl A
      rw [hk] at this
      simpa using this
    have := hhas x ⟨hx, e⟩
    unfold Cube.Has Cube.side at this
    rw [hk] at this
    obtain ⟨u, hu⟩ : ∃ u, u = x.cell := ⟨_, rfl⟩
    rw [← hu] at this ⊢
    obtain ⟨ux, uy, uz⟩ := u
    obtain ⟨⟨lx, ly, lz⟩, k⟩ := c
    simp only [IVec3.mk.injEq]
    dsimp only at this
    simp only [pow_zero] at this
    omega
  choose cell hcell using hcellOf
  let v : LEdge → Fin 4 → Nat := fun e i => V ε (e.seen i)
  have hvert : ∀ e ∈ es, ∀ i, ∃ a, (M ε).vertices[v e i]? = some a ∧ InCell (cell (v e i)) a.position ∧ Spec.edgeCorner e.axis e.at_ 1 i = cell (v e i) := by
    intro e he i
    obtain ⟨hcr, hbd⟩ := (hes e).1 he
    have hIn := edge_piece_in hcr hbd i
    have hlt := (hS.mesh ε).valid _ hIn
    have hv := List.getElem?_eq_getElem hlt
    obtain ⟨k1, -, k2⟩ := hcell _ _ hv
    exact ⟨_, hv, k1, k2 _ hIn rfl⟩
  refine ⟨es, fun e => octQuad (v e 0) (v e 1) (v e 2) (v e 3) (solidAt g' e.at_), v, cell, ⟨hnd, ?_, ?_, ?_, ?_, htri⟩, ?_⟩
  · intro e
    rw [hes]
    constructor
    · rintro ⟨k1, k2⟩
      refine ⟨crosses_of_crossing hg hp h k1, fun P hP => ?_⟩
      by_contra hn
      exact k2 ⟨P, hP, hn⟩
    · rintro ⟨k1, k2⟩
      refine ⟨crossing_of_crosses hg hp h (fun P hP => cubeIn_has hin (k2 P hP)) k1, ?_⟩
      rintro ⟨R, hR, hn⟩
      exact hn (k2 R hR)
  · intro e he
    have hcr := ((hes e).1 he).1
    rw [solidAt_fill hg hp h (edgeVertices_iff.1 hcr.1).1]
    exact quadOf_oct (v e) _
  · intro e he
    obtain ⟨-, -, -, e0⟩ := hvert e he 0
    obtain ⟨-, -, -, e1⟩ := hvert e he 1
    obtain ⟨-, -, -, e2⟩ := hvert e he 2
    obtain ⟨-, -, -, e3⟩ := hvert e he 3
    rw [← e0, ← e1, ← e2, ← e3]
    exact edgeCorner_cells _ _
  · intro e he i
    obtain ⟨a, ha, hc, -⟩ := hvert e he i
    exact ⟨a, ha, world_inCell hstep ho1 ho2 hc⟩
  · intro e he
    refine ⟨⟨_, rfl⟩, fun i => ?_⟩
    obtain ⟨a, ha, -, -⟩ := hvert e he i
    obtain ⟨-, ⟨X, w, h1, h2⟩, -⟩ := hcell _ _ ha
    exact ⟨a, X, w, ha, h1, h2⟩

/-- The mesh of an MDC octree for a negative error bound. -/
theorem mdc_dual {g g' : Grid ℝ} (hg : g.Reachable) (hstep : 0 < g.step) (hp : ProperField f) (h : g.fill f sv = some g')
    {env : DcEnv ℝ} {o o' o1 o2 : MdcOctree ℝ} {solver q' : Qef ℝ 3}
    (ho1 : o.globalPos = g.globalPos) (ho2 : o.globalScale = g.step) (hin : CubeIn g'.maxCoord (rootCube o.level))
    (hsz : 4 * crossingCells g' (rootCube o.level) + 3 < 2 ^ 32)
    (hb : o.build env g' solver = some (q', o')) {bounds : List ℝ} (h1 : contourAll o' bounds = some o1) {ε : ℝ} (hε : ε < 0)
    {r : PlacedMesh ℝ} (h2 : o1.contour ε = some (r, o2)) :
    ∃ es Q v cell, DualMesh f r g.globalPos g.step (rootCube o.level).Has es Q v cell := by
  obtain ⟨es, Q, v, cell, hD, -⟩ := mdc_solved hg hstep hp h ho1 ho2 hin hsz hb h1 hε h2
  exact ⟨es, Q, v, cell, hD⟩

theorem shift_back (p : IVec3) (x y z : Int) : shift (shift p x y z) (-x) (-y) (-z) = p ∧ shift (shift p (-x) (-y) (-z)) x y z = p := by
  obtain ⟨a, b, c⟩ := p
  simp only [shift, IVec3.mk.injEq]
  omega

theorem worldPos_shift (origin : Vec3 ℝ) (step : ℝ) (c p : IVec3) :
    worldPos (worldPos origin step c) step p = worldPos origin step (shift p c.x c.y c.z) := by
  unfold worldPos shift
  ext <;> push_cast <;> ring

theorem edgeEnd_shift (D : Axis) (p : IVec3) (x y z : Int) : edgeEnd D (shift p x y z) = shift (edgeEnd D p) x y z := by
  cases D <;> simp only [edgeEnd, shift, IVec3.mk.injEq] <;> omega

theorem around_shift (D : Axis) (p : IVec3) (x y z : Int) :
    cellsAroundEdge D (shift p x y z) = (cellsAroundEdge D p).map fun P => shift P x y z := by
  obtain ⟨a, b, c⟩ := p
  cases D <;> simp only [cellsAroundEdge, shift, List.map_cons, List.map_nil, List.cons.injEq, IVec3.mk.injEq, and_true] <;> omega

theorem crosses_shift (f : ScalarField ℝ) (origin : Vec3 ℝ) (step : ℝ) (c : IVec3) (D : Axis) (p : IVec3) :
    Crosses f (worldPos (worldPos origin step c) step) D p ↔ Crosses f (worldPos origin step) D (shift p c.x c.y c.z) := by
  unfold Crosses
  rw [worldPos_shift, worldPos_shift, edgeEnd_shift]

/-- Moving the lattice by a lattice vector. -/
theorem DualMesh.move {r : PlacedMesh ℝ} {c : IVec3} {In In' : IVec3 → Prop} {es Q v cell}
    (h : DualMesh f r (worldPos origin step c) step In es Q v cell) (hIn : ∀ P, In' (shift P c.x c.y c.z) ↔ In P) :
    ∃ es Q v cell, DualMesh f r origin step In' es Q v cell := by
  let up : LEdge → LEdge := fun e => ⟨e.axis, shift e.at_ c.x c.y c.z⟩
  let dn : LEdge → LEdge := fun e => ⟨e.axis, shift e.at_ (-c.x) (-c.y) (-c.z)⟩
  have ud : ∀ e, up (dn e) = e := fun e => by simp only [up, dn, (shift_back e.at_ c.x c.y c.z).2]
  have du : ∀ e, dn (up e) = e := fun e => by simp only [up, dn, (shift_back e.at_ c.x c.y c.z).1]
  have hmem : ∀ e, e ∈ es.map up ↔ dn e ∈ es := by
    intro e
    rw [List.mem_map]
    constructor
    · rintro ⟨x, hx, rfl⟩
      rw [du]; exact hx
    · intro hx
      exact ⟨_, hx, ud e⟩
  have hat : ∀ e, e.axis = (dn e).axis ∧ e.at_ = shift (dn e).at_ c.x c.y c.z := fun e => ⟨rfl, (shift_back e.at_ c.x c.y c.z).2.symm⟩
  refine ⟨es.map up, fun e => Q (dn e), fun e => v (dn e), fun n => shift (cell n) c.x c.y c.z, ?_, ?_, ?_, ?_, ?_, ?_⟩
  · exact h.nodup.map fun a b e => by rw [← du a, ← du b, e]
  · intro e
    obtain ⟨x, rfl⟩ : ∃ x, e = up x := ⟨_, (ud e).symm⟩
    rw [hmem, du, h.mem, crosses_shift]
    show _ ↔ Crosses f (worldPos origin step) x.axis (shift x.at_ c.x c.y c.z) ∧ ∀ P ∈ cellsAroundEdge x.axis (shift x.at_ c.x c.y c.z), In' P
    rw [around_shift]
    simp only [List.mem_map, forall_exists_index, and_imp, forall_apply_eq_imp_iff₂, hIn]
  · intro e he
    have := h.quad _ ((hmem e).1 he)
    rw [worldPos_shift, ← (hat e).2] at this
    exact this
  · intro e he
    have := h.cells _ ((hmem e).1 he)
    rw [(hat e).1, (hat e).2, around_shift, this]
    rfl
  · intro e he i
    obtain ⟨a, ha, hc⟩ := h.vert _ ((hmem e).1 he) i
    refine ⟨a, ha, fun A => ?_⟩
    have := hc A
    rw [worldPos_get] at this
    have e1 : (shift (cell (v (dn e) i)) c.x c.y c.z).get A = (cell (v (dn e) i)).get A + c.get A := by cases A <;> rfl
    rw [e1]
    push_cast
    constructor <;> linarith [this.1, this.2]
  · rw [h.tris, List.flatMap_map]
    refine congrArg (fun F => es.flatMap F) (funext fun e => ?_)
    rw [du]

theorem patch_dual (hf : ProperField f) (hstep : 0 < step) {k : Patch} (hk : k.Computed f origin step) :
    ∃ es Q v cell, DualMesh f k.mesh origin step k.Has es Q v cell := by
  rcases hk with hk | hk | hk
  · obtain ⟨sv, g, g', env, solver, q, at_, hg, hs, hpos, hfill, hsort, hpinv, hr, hcor, hside⟩ := hk
    obtain ⟨es, Q, v, cell, this⟩ := uniform_dual hg (by rw [hs]; exact hstep) hf hfill hsort hpinv hr
    rw [hs, hpos] at this
    refine this.move fun P => ?_
    unfold Patch.Has
    rw [cellIn_iff, hside]
    simp only [hcor]
    constructor
    · intro hP
      have h1 := hP .X
      have h2 := hP .Y
      have h3 := hP .Z
      simp only [IVec3.get, shift] at h1 h2 h3
      omega
    · intro hP a
      cases a <;> simp only [IVec3.get, shift] <;> omega
  · obtain ⟨sv, g, g', env, solver, q, ε, o, o', o'', at_, hg, hs, hpos, hfill, hpinv, ho1, ho2, hin, hb, hc, hcor, hside⟩ := hk
    obtain ⟨es, Q, v, cell, this⟩ := octree_dual hg (by rw [hs]; exact hstep) hf hfill hpinv ho1 ho2 hin hb hc
    rw [hs, hpos] at this
    refine this.move fun P => ?_
    unfold Patch.Has Cube.Has
    rw [hside]
    simp only [hcor]
    constructor
    · intro hP
      have h1 := hP .X
      have h2 := hP .Y
      have h3 := hP .Z
      simp only [IVec3.get, shift] at h1 h2 h3
      omega
    · intro hP a
      cases a <;> simp only [IVec3.get, shift] <;> omega
  · obtain ⟨sv, g, g', env, solver, q, o, o', o1, o2, bounds, ε, at_, hg, hs, hpos, hfill, ho1, ho2, hin, hsz, hb, hb1, hε, hc, hcor, hside⟩ := hk
    obtain ⟨es, Q, v, cell, this⟩ := mdc_dual hg (by rw [hs]; exact hstep) hf hfill ho1 ho2 hin hsz hb hb1 hε hc
    rw [hs, hpos] at this
    refine this.move fun P => ?_
    unfold Patch.Has Cube.Has
    rw [hside]
    simp only [hcor]
    constructor
    · intro hP
      have h1 := hP .X
      have h2 := hP .Y
      have h3 := hP .Z
      simp only [IVec3.get, shift] at h1 h2 h3
      omega
    · intro hP a
      cases a <;> simp only [IVec3.get, shift] <;> omega

/-- A solid point of the box is strictly inside. -/
theorem solid_inside {k : Patch} (hclear : ClearOfPatch f origin step k) {p : IVec3} (hp : k.HasPoint p) (hs : f.value (worldPos origin step p) ≤ 0)
    (a : Axis) : k.corner.get a < p.get a ∧ p.get a < k.corner.get a + k.side := by
  by_contra hc
  refine not_le.2 (hclear p hp ⟨a, ?_⟩) hs
  have := hp a
  omega

theorem around_get {D : Axis} {p P : IVec3} (hP : P ∈ cellsAroundEdge D p) (a : Axis) :
    (a = D → P.get a = p.get a) ∧ (a ≠ D → P.get a = p.get a ∨ P.get a = p.get a - 1) := by
  obtain ⟨x, y, z⟩ := p
  cases D <;> simp only [cellsAroundEdge, shift, List.mem_cons, List.not_mem_nil, or_false] at hP <;> rcases hP with rfl | rfl | rfl | rfl <;>
    cases a <;> simp [IVec3.get] <;> omega

theorem edge_cells_in {k : Patch} {D : Axis} {p u : IVec3} (hp : k.HasPoint p) (he : k.HasPoint (edgeEnd D p)) (hu : u = p ∨ u = edgeEnd D p)
    (hin : ∀ a, k.corner.get a < u.get a ∧ u.get a < k.corner.get a + k.side) : ∀ P ∈ cellsAroundEdge D p, k.Has P := by
  intro P hP a
  obtain ⟨h1, h2⟩ := around_get hP a
  have h3 := hp a
  have h4 := he a
  have h5 := hin a
  have eu : a ≠ D → u.get a = p.get a := by
    intro hne
    rcases hu with rfl | rfl
    · rfl
    · rw [edgeEnd_get]
      split_ifs with h
      · exact (hne h).elim
      · simp
  rw [edgeEnd_get] at h4
  by_cases ha : a = D
  · have := h1 ha
    rw [if_pos ha] at h4
    omega
  · have := h2 ha
    have := eu ha
    omega

theorem crosses_end {D : Axis} {p : IVec3} (hc : Crosses f (worldPos origin step) D p) :
    ∃ u, (u = p ∨ u = edgeEnd D p) ∧ f.value (worldPos origin step u) ≤ 0 := by
  by_cases h0 : f.value (worldPos origin step p) ≤ 0
  · exact ⟨p, Or.inl rfl, h0⟩
  · refine ⟨_, Or.inr rfl, ?_⟩
    by_contra h1
    exact hc ⟨fun h => (h0 h).elim, fun h => (h1 h).elim⟩

/-- The edges crossed inside a box in which the solid is clear of the border have their cells in the box. -/
theorem crossed_iff {k : Patch} (hclear : ClearOfPatch f origin step k) {D : Axis} {p : IVec3} (hc : Crosses f (worldPos origin step) D p) :
    (k.HasPoint p ∧ k.HasPoint (edgeEnd D p)) ↔ ∀ P ∈ cellsAroundEdge D p, k.Has P := by
  constructor
  · rintro ⟨h1, h2⟩
    obtain ⟨u, hu, hs⟩ := crosses_end hc
    exact edge_cells_in h1 h2 hu (solid_inside hclear (by rcases hu with rfl | rfl <;> assumption) hs)
  · intro h
    have key : ∀ a, (k.corner.get a ≤ p.get a ∧ p.get a ≤ k.corner.get a + k.side) ∧
        (k.corner.get a ≤ (edgeEnd D p).get a ∧ (edgeEnd D p).get a ≤ k.corner.get a + k.side) := by
      intro a
      have hm : p ∈ cellsAroundEdge D p := by
        obtain ⟨x, y, z⟩ := p
        cases D <;> simp [cellsAroundEdge, shift]
      have := h p hm a
      rw [edgeEnd_get]
      split_ifs <;> omega
    exact ⟨fun a => (key a).1, fun a => (key a).2⟩

/-- The mesh of a patch in which the solid is clear of the border is closed. -/
theorem patch_closed (hf : ProperField f) (hstep : 0 < step) {k : Patch} (hk : k.Computed f origin step) (hclear : ClearOfPatch f origin step k) :
    Watertight (triangles k.mesh.mesh.indices) := by
  have hbord : ∀ (at_ : IVec3) {g g' : Grid ℝ} {sv : ZeroFinder ℝ}, g.Reachable → g.step = step → g.globalPos = worldPos origin step at_ →
      g.fill f sv = some g' → ∀ D p, CrossingEdge g' D p → k.HasPoint (shift p at_.x at_.y at_.z) →
      k.HasPoint (shift (edgeEnd D p) at_.x at_.y at_.z) → ∀ P ∈ cellsAroundEdge D p, k.Has (shift P at_.x at_.y at_.z) := by
    intro at_ g g' sv hg hs hpos hfill D p hc h1 h2 P hP
    have hcr := crosses_of_crossing hg hf hfill hc
    rw [hs, hpos, crosses_shift] at hcr
    rw [← edgeEnd_shift] at h2
    refine (crossed_iff hclear hcr).1 ⟨h1, h2⟩ _ ?_
    rw [around_shift]
    exact List.mem_map_of_mem hP
  have hpt : ∀ {at_ : IVec3} {c : Cube}, (∀ a, k.corner.get a = at_.get a + c.lo.get a) → k.side = c.side →
      (∀ p, c.Closed p → k.HasPoint (shift p at_.x at_.y at_.z)) ∧ (∀ P, k.Has (shift P at_.x at_.y at_.z) → c.Has P) := by
    intro at_ c hcor hside
    constructor
    · intro p hp a
      rw [hcor, hside]
      unfold Cube.Closed at hp
      cases a <;> simp only [IVec3.get, shift] <;> omega
    · intro P hP
      have h1 := hP .X
      have h2 := hP .Y
      have h3 := hP .Z
      rw [hcor, hside] at h1 h2 h3
      unfold Cube.Has
      simp only [IVec3.get, shift] at h1 h2 h3
      omega
  have hclosed : ∀ {c : Cube} {P v : IVec3}, c.Has P → v ∈ cellVertices P → c.Closed v := by
    intro c P v hP hv
    have gx := cellVertices_get hv .X
    have gy := cellVertices_get hv .Y
    have gz := cellVertices_get hv .Z
    unfold Cube.Has at hP
    unfold Cube.Closed
    simp only [IVec3.get] at gx gy gz
    omega
  have hends : ∀ {D : Axis} {p : IVec3}, p ∈ edgeVertices D p ∧ edgeEnd D p ∈ edgeVertices D p := by
    intro D p
    cases D <;> simp [edgeVertices, edgeEnd]
  rcases hk with hk | hk | hk
  · obtain ⟨sv, g, g', env, solver, q, at_, hg, hs, hpos, hfill, hsort, hpinv, hr, hcor, hside⟩ := hk
    obtain ⟨g'', hfill', ⟨-, hhalf, -, -⟩, -⟩ := C06_fill_materials hg f sv
    rw [hfill] at hfill'; cases hfill'
    have hm : g'.maxCoord = g.maxCoord := hhalf
    refine C20_closed_surface (C07_filled hg hf hfill) hsort hpinv hr fun D p hc P hP => ?_
    have hp : ∀ p, InCube g'.maxCoord p → k.HasPoint (shift p at_.x at_.y at_.z) := by
      intro p hp a
      rw [hm] at hp
      rw [hcor, hside]
      unfold InCube at hp
      cases a <;> simp only [IVec3.get, shift] <;> omega
    have := hbord at_ hg hs hpos hfill D p hc (hp _ (hc.1 _ hends.1)) (hp _ (hc.1 _ hends.2)) P hP
    have h1 := this .X
    have h2 := this .Y
    have h3 := this .Z
    rw [hcor, hside] at h1 h2 h3
    rw [hm, cellIn_iff]
    simp only [IVec3.get, shift] at h1 h2 h3
    omega
  · obtain ⟨sv, g, g', env, solver, q, ε, o, o', o'', at_, hg, hs, hpos, hfill, hpinv, ho1, ho2, hin, hb, hc, hcor, hside⟩ := hk
    obtain ⟨p1, p2⟩ := hpt hcor hside
    refine C58_closed_surface (C07_filled hg hf hfill) hin hb hc fun D p hcr hP => ?_
    rintro ⟨R, hR, hn⟩
    obtain ⟨P, hP, heP⟩ := hP
    exact hn (p2 _ (hbord at_ hg hs hpos hfill D p hcr (p1 _ (hclosed hP (heP _ hends.1))) (p1 _ (hclosed hP (heP _ hends.2))) R hR))
  · obtain ⟨sv, g, g', env, solver, q, o, o', o1, o2, bounds, ε, at_, hg, hs, hpos, hfill, ho1, ho2, hin, hsz, hb, hb1, hε, hc, hcor, hside⟩ := hk
    obtain ⟨p1, p2⟩ := hpt hcor hside
    have hsc : o.globalScale ≠ 0 := by rw [ho2, hs]; exact hstep.ne'
    intro a b
    refine (C29_contour (C07_filled hg hf hfill) hin hsz (mul_self_pos.2 hsc) hb (fun x hx => ?_) hb1 hc a b).2
    rintro ⟨R, hR, hn⟩
    obtain ⟨hP, hcr, heP⟩ := hx
    exact hn (p2 _ (hbord at_ hg hs hpos hfill _ _ hcr (p1 _ (hclosed hP (heP _ hends.1))) (p1 _ (hclosed hP (heP _ hends.2))) R hR))

theorem points_finite (k : Patch) : {p : IVec3 | k.HasPoint p}.Finite := by
  refine ((Finset.Icc k.corner.x (k.corner.x + k.side) ×ˢ Finset.Icc k.corner.y (k.corner.y + k.side) ×ˢ
    Finset.Icc k.corner.z (k.corner.z + k.side)).image fun v : Int × Int × Int => (⟨v.1, v.2.1, v.2.2⟩ : IVec3)).finite_toSet.subset fun p hp => ?_
  rw [Finset.mem_coe, Finset.mem_image]
  refine ⟨(p.x, p.y, p.z), ?_, rfl⟩
  simp only [Finset.mem_product, Finset.mem_Icc]
  exact ⟨hp .X, hp .Y, hp .Z⟩

/-- C95: take the mesh made by one of the dual methods without simplification over a box on the surface of which the field is positive at all
lattice points.  The volume enclosed by the mesh differs from that of one cell for each solid lattice point of the box by at most eight cells for
each crossed edge, wherever the zero finder and the solver put the vertices. -/
theorem C95_volume (hf : ProperField f) (hstep : 0 < step) {k : Patch} (hk : k.Computed f origin step) (hclear : ClearOfPatch f origin step k) :
    |enclosedVolume k.mesh - (solidPoints f origin step k).ncard * step ^ 3| ≤ 8 * ((crossedEdges f origin step k).ncard * step ^ 3) := by
  classical
  obtain ⟨es, Q, v, cell, hD⟩ := patch_dual hf hstep hk
  have hfin : (solidPoints f origin step k).Finite := (points_finite k).subset fun p hp => hp.1
  obtain ⟨S, hS⟩ : ∃ S : Finset IVec3, ∀ p, p ∈ S ↔ k.HasPoint p ∧ f.value (worldPos origin step p) ≤ 0 :=
    ⟨hfin.toFinset, fun p => hfin.mem_toFinset⟩
  have hcard : (solidPoints f origin step k).ncard = S.card := by
    rw [← Set.ncard_coe_finset]
    congr 1
    ext p
    exact (hS p).symm
  have hcardE : (crossedEdges f origin step k).ncard = es.length := by
    rw [← List.toFinset_card_of_nodup hD.nodup, ← Set.ncard_coe_finset]
    congr 1
    ext e
    rw [Finset.mem_coe, List.mem_toFinset, hD.mem]
    constructor
    · rintro ⟨h1, h2, h3⟩
      exact ⟨h3, (crossed_iff hclear h3).1 ⟨h1, h2⟩⟩
    · rintro ⟨h1, h2⟩
      obtain ⟨h3, h4⟩ := (crossed_iff hclear h1).2 h2
      exact ⟨h3, h4, h1⟩
  have hes : ∀ e : LEdge, e ∈ es ↔ ¬ (e.at_ ∈ S ↔ edgeEnd e.axis e.at_ ∈ S) := by
    intro e
    rw [hD.mem, hS, hS]
    constructor
    · rintro ⟨h1, h2⟩
      obtain ⟨h3, h4⟩ := (crossed_iff hclear h1).2 h2
      intro h
      exact h1 ⟨fun x => (h.1 ⟨h3, x⟩).2, fun x => (h.2 ⟨h4, x⟩).2⟩
    · intro h
      have hin : k.HasPoint e.at_ ∧ k.HasPoint (edgeEnd e.axis e.at_) := by
        by_cases h1 : k.HasPoint e.at_ ∧ f.value (worldPos origin step e.at_) ≤ 0
        · refine ⟨h1.1, fun a => ?_⟩
          have := solid_inside hclear h1.1 h1.2 a
          rw [edgeEnd_get]
          split_ifs <;> omega
        · have h2 : k.HasPoint (edgeEnd e.axis e.at_) ∧ f.value (worldPos origin step (edgeEnd e.axis e.at_)) ≤ 0 := by
            by_contra h2
            exact h ⟨fun x => (h1 x).elim, fun x => (h2 x).elim⟩
          refine ⟨fun a => ?_, h2.1⟩
          have := solid_inside hclear h2.1 h2.2 a
          rw [edgeEnd_get] at this
          split_ifs at this <;> omega
      have hcr : Crosses f (worldPos origin step) e.axis e.at_ := by
        intro x
        exact h ⟨fun y => ⟨hin.2, x.1 y.2⟩, fun y => ⟨hin.1, x.2 y.2⟩⟩
      exact ⟨hcr, (crossed_iff hclear hcr).1 hin⟩
  let pos : Nat → Vec3 ℝ := fun n => match k.mesh.mesh.vertices[n]? with
    | some a => meshToWorld k.mesh a.position
    | none => ⟨0, 0, 0⟩
  have hpos : ∀ {n a}, k.mesh.mesh.vertices[n]? = some a → pos n = meshToWorld k.mesh a.position := by
    intro n a h
    simp only [pos, h]
  have hQ : ∀ e ∈ es, QuadOf (v e) (decide (e.at_ ∈ S)) (Q e) := by
    intro e he
    have := hD.quad e he
    have h1 := (hD.mem e).1 he
    have hin := (crossed_iff hclear h1.1).2 h1.2
    have : decide (e.at_ ∈ S) = decide (f.value (worldPos origin step e.at_) ≤ 0) := by
      rw [decide_eq_decide, hS]
      exact ⟨fun x => x.2, fun x => ⟨hin.1, x⟩⟩
    rw [this]
    assumption
  have hcl : Watertight (es.flatMap Q) := by rw [← hD.tris]; exact patch_closed hf hstep hk hclear
  have key := dual_volume S origin hstep hD.nodup hes hQ hD.cells (pos := pos) (fun e he i => by
    obtain ⟨a, ha, hc⟩ := hD.vert e he i
    rw [hpos ha]
    exact hc) hcl
  have hsix : 6 * enclosedVolume k.mesh = sixVol pos (es.flatMap Q) := by
    unfold enclosedVolume sixVol
    rw [hD.tris, ← List.sum_map_mul_left]
    refine congrArg List.sum (List.map_congr_left fun t ht => ?_)
    obtain ⟨e, he, hte⟩ := List.mem_flatMap.1 ht
    obtain ⟨⟨i, h1⟩, ⟨j, h2⟩, ⟨l, h3⟩⟩ := (hD.quad e he).corner t hte
    obtain ⟨a, ha, -⟩ := hD.vert e he i
    obtain ⟨b, hb, -⟩ := hD.vert e he j
    obtain ⟨c, hc, -⟩ := hD.vert e he l
    rw [h1, h2, h3, ha, hb, hc, hpos ha, hpos hb, hpos hc]
    simp only [toWorld, meshToWorld]
    ring
  rw [← hsix] at key
  rw [hcard, hcardE]
  rw [abs_le] at key ⊢
  constructor <;> linarith [key.1, key.2]

/-- A body strictly inside the box is clear of its border. -/
theorem body_clear {k : Patch} (hin : BodyInPatch f origin step k) : ClearOfPatch f origin step k := by
  rintro p - ⟨a, ha⟩
  by_contra hc
  obtain ⟨h1, h2⟩ := hin _ (not_lt.1 hc) a
  rw [worldPos_get] at h1 h2
  rcases ha with ha | ha
  · rw [ha] at h1
    exact lt_irrefl _ h1
  · rw [ha] at h2
    exact lt_irrefl _ h2

/-- C95 (the volume of the body): if the body is strictly inside the box, then the volume enclosed by the mesh differs from the volume of the body
by at most 49 times the volume of the layer of one step around the body's surface. -/
theorem C95_body (hf : ProperField f) (hstep : 0 < step) {k : Patch} (hk : k.Computed f origin step) (hin : BodyInPatch f origin step k) :
    |enclosedVolume k.mesh - bodyVolume f| ≤ 49 * layerVolume f step := by
  classical
  have hclear := body_clear hin
  have hvol := C95_volume hf hstep hk hclear
  have hbd : Bornology.IsBounded (Body f) := by
    let B : Axis → ℝ := fun a => |(k.corner.get a : ℝ) * step + origin.get a| + |((k.corner.get a + k.side : Int) : ℝ) * step + origin.get a|
    refine body_bounded (B := B .X + B .Y + B .Z) fun q hq a => ?_
    obtain ⟨h1, h2⟩ := hin q hq a
    have hB : ∀ a, 0 ≤ B a := fun a => by positivity
    have h3 : |q.get a| ≤ B a := by
      rw [abs_le]
      have e1 := neg_abs_le ((k.corner.get a : ℝ) * step + origin.get a)
      have e2 := abs_nonneg ((k.corner.get a : ℝ) * step + origin.get a)
      have e3 := le_abs_self (((k.corner.get a + k.side : Int) : ℝ) * step + origin.get a)
      have e4 := abs_nonneg (((k.corner.get a + k.side : Int) : ℝ) * step + origin.get a)
      constructor <;> simp only [B] <;> linarith
    have := hB .X
    have := hB .Y
    have := hB .Z
    cases a <;> linarith
  let sol : IVec3 → Prop := fun p => f.value (worldPos origin step p) ≤ 0
  obtain ⟨So, hSo⟩ : ∃ So : Set IVec3, So = {P | k.Has P ∧ ∀ v ∈ cellVertices P, sol v} := ⟨_, rfl⟩
  obtain ⟨T, hT⟩ : ∃ T : Set IVec3, T = {P | k.Has P ∧ ∃ v ∈ cellVertices P, sol v} := ⟨_, rfl⟩
  have hself : ∀ P : IVec3, P ∈ cellVertices P := fun P => by simp [cellVertices, shift]
  have hTfin : T.Finite := (points_finite k).subset fun P hP a => by
    rw [hT] at hP
    have := hP.1 a
    omega
  have hsub : So ⊆ T := by
    intro P hP
    rw [hSo] at hP
    rw [hT]
    exact ⟨hP.1, P, hself P, hP.2 P (hself P)⟩
  obtain ⟨m1, m2⟩ := cells_measure f origin hstep (solid := So) (touched := T) hTfin
    (fun P hP => by
      rw [hT] at hP
      rw [hSo]
      exact ⟨fun h => h.2, fun h => ⟨hP.1, h⟩⟩)
    hsub (fun P hP => by rw [hT] at hP; exact hP.2)
    (fun x hx P hP => by
      by_cases hv : ∃ v ∈ cellVertices P, f.value (worldPos origin step v) ≤ 0
      · left
        rw [hT]
        refine ⟨fun a => ?_, hv⟩
        obtain ⟨h1, h2⟩ := hin (point x) hx a
        obtain ⟨h3, h4⟩ := (mem_cellBox.1 hP) a
        constructor
        · by_contra hc
          have : (P.get a : ℝ) + 1 ≤ (k.corner.get a : ℝ) := by exact_mod_cast (by omega : P.get a + 1 ≤ k.corner.get a)
          nlinarith
        · by_contra hc
          have : ((k.corner.get a + k.side : Int) : ℝ) ≤ (P.get a : ℝ) := by exact_mod_cast (by omega : k.corner.get a + k.side ≤ P.get a)
          nlinarith
      · push Not at hv
        exact Or.inr fun v hv' => not_le.2 (hv v hv'))
    (body_finite hbd step).1 (body_finite hbd step).2
  have hfin : (solidPoints f origin step k).Finite := (points_finite k).subset fun p hp => hp.1
  have c1 : So.ncard ≤ (solidPoints f origin step k).ncard := by
    refine Set.ncard_le_ncard (fun P hP => ?_) hfin
    rw [hSo] at hP
    refine ⟨fun a => ?_, hP.2 P (hself P)⟩
    have := hP.1 a
    omega
  have c2 : (solidPoints f origin step k).ncard ≤ T.ncard := by
    refine Set.ncard_le_ncard (fun P hP => ?_) hTfin
    rw [hT]
    refine ⟨fun a => ?_, P, hself P, hP.2⟩
    have := solid_inside hclear hP.1 hP.2 a
    omega
  have c3 : (crossedEdges f origin step k).ncard ≤ 3 * (T \ So).ncard := by
    have hdfin : (T \ So).Finite := hTfin.subset diff_subset
    have hmap : ∀ D : Axis, {e ∈ crossedEdges f origin step k | e.axis = D}.ncard ≤ (T \ So).ncard := by
      intro D
      refine Set.ncard_le_ncard_of_injOn (fun e => e.at_) (fun e he => ?_) ?_ hdfin
      · obtain ⟨⟨h1, h2, h3⟩, -⟩ := he
        have hm : e.at_ ∈ cellsAroundEdge e.axis e.at_ := by
          obtain ⟨D, x, y, z⟩ := e
          cases D <;> simp [cellsAroundEdge, shift]
        have hh := (crossed_iff hclear h3).1 ⟨h1, h2⟩ _ hm
        have hend : edgeEnd e.axis e.at_ ∈ cellVertices e.at_ := (C04_around_edge_geometry e.axis e.at_).2.1 _ hm _ (by
          cases e.axis <;> simp [edgeVertices, edgeEnd])
        refine ⟨?_, fun hs => ?_⟩
        · rw [hT]
          obtain ⟨u, hu, hsol⟩ := crosses_end h3
          refine ⟨hh, u, ?_, hsol⟩
          rcases hu with rfl | rfl
          · exact hself _
          · exact hend
        · rw [hSo] at hs
          exact h3 ⟨fun _ => hs.2 _ hend, fun _ => hs.2 _ (hself _)⟩
      · rintro ⟨D1, p1⟩ ⟨-, h1⟩ ⟨D2, p2⟩ ⟨-, h2⟩ h
        simp only at h1 h2 h
        rw [h1, h2, h]
    have hun : crossedEdges f origin step k = {e ∈ crossedEdges f origin step k | e.axis = .X} ∪ {e ∈ crossedEdges f origin step k | e.axis = .Y} ∪
        {e ∈ crossedEdges f origin step k | e.axis = .Z} := by
      ext e
      simp only [mem_union, mem_setOf_eq]
      constructor
      · intro h
        cases he : e.axis <;> simp [h]
      · rintro ((h | h) | h) <;> exact h.1
    rw [hun]
    refine (Set.ncard_union_le _ _).trans ?_
    have := Set.ncard_union_le {e ∈ crossedEdges f origin step k | e.axis = .X} {e ∈ crossedEdges f origin step k | e.axis = .Y}
    have := hmap .X
    have := hmap .Y
    have := hmap .Z
    omega
  have c4 : (T \ So).ncard + So.ncard = T.ncard := Set.ncard_diff_add_ncard_of_subset hsub hTfin
  have h3 : (0 : ℝ) < step ^ 3 := by positivity
  have d1 : (So.ncard : ℝ) * step ^ 3 ≤ (solidPoints f origin step k).ncard * step ^ 3 :=
    mul_le_mul_of_nonneg_right (by exact_mod_cast c1) h3.le
  have d2 : ((solidPoints f origin step k).ncard : ℝ) * step ^ 3 ≤ T.ncard * step ^ 3 :=
    mul_le_mul_of_nonneg_right (by exact_mod_cast c2) h3.le
  have d3 : ((crossedEdges f origin step k).ncard : ℝ) * step ^ 3 ≤ 3 * (T.ncard * step ^ 3 - So.ncard * step ^ 3) := by
    have e1 : ((crossedEdges f origin step k).ncard : ℝ) ≤ 3 * ((T.ncard : ℝ) - So.ncard) := by
      have e2 : ((crossedEdges f origin step k).ncard : ℝ) ≤ 3 * (T \ So).ncard := by exact_mod_cast c3
      have e3 : ((T \ So).ncard : ℝ) + So.ncard = T.ncard := by exact_mod_cast c4
      linarith
    have := mul_le_mul_of_nonneg_right e1 h3.le
    linarith
  rw [abs_le] at hvol ⊢
  constructor <;> linarith [hvol.1, hvol.2]

/-- Non-vacuity of C95: the cube of side 3 is strictly inside the box of four cells per side of a grid, uniform dual contouring
makes a mesh of it, and it has solid lattice points. -/
example {env : DcEnv ℝ} (hsort : IsSort env.srt) :
    ∃ k : Patch, k.Uniform boxField ⟨0, 0, 0⟩ 1 ∧ k.Computed boxField ⟨0, 0, 0⟩ 1 ∧ BodyInPatch boxField ⟨0, 0, 0⟩ 1 k ∧
      ⟨0, 0, 0⟩ ∈ solidPoints boxField ⟨0, 0, 0⟩ 1 k := by
  have hf : ProperField boxField := by intro q _; simp [boxField]
  obtain ⟨g, e, hp, hs, hm⟩ : ∃ g, Grid.mk' 4 (⟨0, 0, 0⟩ : Vec3 ℝ) 1 = .ok g ∧ g.globalPos = ⟨0, 0, 0⟩ ∧ g.step = 1 ∧ g.maxCoord = 2 :=
    ⟨_, rfl, rfl, rfl, rfl⟩
  have hg : g.Reachable := .mk e
  obtain ⟨g', hfill, -⟩ := C06_fill_materials hg boxField (bisectionFinder 4)
  have hpinv : 0 < (Qef.new3 : Qef ℝ 3).pinvTolerance := by norm_num [Qef.new3]
  obtain ⟨-, q, r, hr, -⟩ := C18_vertices (env := env) (C07_filled hg hf hfill) hsort hpinv
  have hu : (Patch.mk ⟨-2, -2, -2⟩ 4 r).Uniform boxField ⟨0, 0, 0⟩ 1 :=
    ⟨_, g, g', env, _, q, ⟨0, 0, 0⟩, hg, hs, by rw [hp]; simp [worldPos], hfill, hsort, hpinv, hr, fun a => by rw [hm]; cases a <;> rfl, by rw [hm]; rfl⟩
  refine ⟨⟨⟨-2, -2, -2⟩, 4, r⟩, hu, Or.inl hu, fun q hq a => ?_, fun a => ?_, ?_⟩
  · simp only [boxField, sub_nonpos, max_le_iff] at hq
    have h1 : |q.get a| ≤ 3 / 2 := by cases a <;> simp only [Vec3.get] <;> tauto
    have h2 := abs_le.1 h1
    have e0 : (⟨0, 0, 0⟩ : Vec3 ℝ).get a = 0 := by cases a <;> rfl
    have e1 : (⟨-2, -2, -2⟩ : IVec3).get a = -2 := by cases a <;> rfl
    dsimp only
    rw [e0, e1]
    push_cast
    constructor <;> linarith
  · cases a <;> simp [IVec3.get]
  · simp [boxField, worldPos]
    norm_num

end Isomesh
