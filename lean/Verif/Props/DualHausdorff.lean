import Verif.Spec.DualHausdorff
import Verif.Props.Hausdorff
import Verif.Props.AccuracyOct
import Verif.Props.Completeness
import Verif.Props.DcUniform
import Verif.Props.DcManifold
import Verif.Props.MdcOctree

/-! C93: the meshes of the dual methods converge to the surface of the body. -/

namespace Isomesh
open Spec Set

variable {f : ScalarField ℝ} {sv : ZeroFinder ℝ} {origin : Vec3 ℝ} {step : ℝ}

/-- The vertex `i` of the mesh exists and is within one step of the whole grid edge, coordinate by coordinate. -/
def VertexNear (r : PlacedMesh ℝ) (origin : Vec3 ℝ) (step : ℝ) (D : Axis) (p : IVec3) (i : Nat) : Prop :=
  ∃ a, r.mesh.vertices[i]? = some a ∧ ∀ z, OnGridEdge origin step D p z → ∀ A : Axis, |(meshToWorld r a.position).get A - z.get A| ≤ step

/-- A mesh made of triangles around the crossed edges, with all crossed edges the cells around which are in a region. -/
structure AroundEdges (f : ScalarField ℝ) (r : PlacedMesh ℝ) (origin : Vec3 ℝ) (step : ℝ) (In : IVec3 → Prop) : Prop where
  near : ∀ t ∈ triangles r.mesh.indices, ∃ D p, Crosses f (worldPos origin step) D p ∧ ∀ i ∈ corners t, VertexNear r origin step D p i
  all : ∀ D p, Crosses f (worldPos origin step) D p → (∀ P ∈ cellsAroundEdge D p, In P) →
    ∃ t ∈ triangles r.mesh.indices, ∀ i ∈ corners t, VertexNear r origin step D p i

theorem tri_near {a b c q z : Vec3 ℝ} {s : ℝ} (ha : ∀ A : Axis, |a.get A - z.get A| ≤ s) (hb : ∀ A : Axis, |b.get A - z.get A| ≤ s)
    (hc : ∀ A : Axis, |c.get A - z.get A| ≤ s) (hq : InTriangle a b c q) (A : Axis) : |q.get A - z.get A| ≤ s := by
  obtain ⟨x, y, w, x0, y0, w0, hs, rfl⟩ := hq
  have e : (Vec3.mk (x * a.x + y * b.x + w * c.x) (x * a.y + y * b.y + w * c.y) (x * a.z + y * b.z + w * c.z)).get A =
      x * a.get A + y * b.get A + w * c.get A := by cases A <;> rfl
  rw [e]
  have h1 := abs_le.1 (ha A)
  have h2 := abs_le.1 (hb A)
  have h3 := abs_le.1 (hc A)
  obtain rfl : w = 1 - x - y := by linarith
  rw [abs_le]
  constructor
  · nlinarith [mul_nonneg x0 (sub_nonneg.2 h1.1), mul_nonneg y0 (sub_nonneg.2 h2.1), mul_nonneg w0 (sub_nonneg.2 h3.1)]
  · nlinarith [mul_nonneg x0 (sub_nonneg.2 h1.2), mul_nonneg y0 (sub_nonneg.2 h2.2), mul_nonneg w0 (sub_nonneg.2 h3.2)]

theorem dist_of_get {x z : Fin 3 → ℝ} {s : ℝ} (hs : 0 ≤ s) (h : ∀ A : Axis, |(point x).get A - (point z).get A| ≤ s) : dist x z ≤ s := by
  rw [dist_pi_le_iff hs]
  intro i
  rw [Real.dist_eq]
  fin_cases i
  · exact h .X
  · exact h .Y
  · exact h .Z

theorem get_of_dist {x z : Fin 3 → ℝ} {s : ℝ} (h : dist x z ≤ s) (A : Axis) : |(point x).get A - (point z).get A| ≤ s := by
  have h2 := fun i => (dist_le_pi_dist x z i).trans h
  simp only [Real.dist_eq] at h2
  cases A
  · exact h2 0
  · exact h2 1
  · exact h2 2

/-- A crossed edge meets the surface. -/
theorem crossed_edge_surface (hstep : 0 < step) {D : Axis} {p : IVec3} (hc : Crosses f (worldPos origin step) D p) :
    ∃ z ∈ Surface f, OnGridEdge origin step D p (point z) := by
  have key : ∃ z ∈ segment ℝ (gridPoint origin step p) (gridPoint origin step (edgeEnd D p)), z ∈ Surface f := by
    by_cases h0 : f.value (worldPos origin step p) ≤ 0
    · exact meets_frontier (s := Body f) (convex_segment _ _).isPreconnected (left_mem_segment ℝ _ _) (right_mem_segment ℝ _ _) h0
        (fun h1 => hc ⟨fun _ => h1, fun _ => h0⟩)
    · refine meets_frontier (s := Body f) (convex_segment _ _).isPreconnected (right_mem_segment ℝ _ _) (left_mem_segment ℝ _ _) ?_ h0
      by_contra h1
      exact hc ⟨fun h => (h0 h).elim, fun h => (h1 h).elim⟩
  obtain ⟨z, hz, hzf⟩ := key
  refine ⟨z, hzf, ?_⟩
  obtain ⟨s, t, s0, t0, hst, rfl⟩ := hz
  refine ⟨t, t0, by linarith, ?_⟩
  have hg : ∀ A, (point (s • gridPoint origin step p + t • gridPoint origin step (edgeEnd D p))).get A =
      ((worldPos origin step p).set D ((worldPos origin step p).get D + t * step)).get A := by
    intro A
    have e : (point (s • gridPoint origin step p + t • gridPoint origin step (edgeEnd D p))).get A =
        s * (worldPos origin step p).get A + t * (worldPos origin step (edgeEnd D p)).get A := by
      cases A <;> simp [point, gridPoint, Vec3.get]
    rw [e, vec3_get_set, worldPos_get, worldPos_get, edgeEnd_get]
    obtain rfl : s = 1 - t := by linarith
    split_ifs with h
    · subst h; rw [worldPos_get]; push_cast; ring
    · push_cast; ring
  exact Vec3.ext (hg .X) (hg .Y) (hg .Z)

/-- Each point of such a mesh is within one step of the surface. -/
theorem around_near (hstep : 0 < step) {r : PlacedMesh ℝ} {In : IVec3 → Prop} (h : AroundEdges f r origin step In) {x : Fin 3 → ℝ} (hx : x ∈ placedPoints r) :
    ∃ z ∈ Surface f, dist x z ≤ step := by
  obtain ⟨t, ht, a, b, c, ha, hb, hc, hin⟩ := hx
  obtain ⟨D, p, hcr, hv⟩ := h.near t ht
  obtain ⟨z, hz, hze⟩ := crossed_edge_surface hstep hcr
  refine ⟨z, hz, dist_of_get hstep.le (tri_near ?_ ?_ ?_ hin)⟩
  · obtain ⟨a', e, k⟩ := hv t.1 (mem_corners.2 (Or.inl rfl))
    rw [ha] at e; cases e
    exact k _ hze
  · obtain ⟨a', e, k⟩ := hv t.2.1 (mem_corners.2 (Or.inr (Or.inl rfl)))
    rw [hb] at e; cases e
    exact k _ hze
  · obtain ⟨a', e, k⟩ := hv t.2.2 (mem_corners.2 (Or.inr (Or.inr rfl)))
    rw [hc] at e; cases e
    exact k _ hze

/-- Between an inner and an outer point such a mesh has a point. -/
theorem around_between (hstep : 0 < step) {S : Set (Fin 3 → ℝ)}
    (h : ∀ D p, Crosses f (worldPos origin step) D p → ∃ r : PlacedMesh ℝ, placedPoints r ⊆ S ∧
      ∃ t ∈ triangles r.mesh.indices, ∀ i ∈ corners t, VertexNear r origin step D p i) {z : Fin 3 → ℝ} {ρ : ℝ}
    (hz : ThickAt f step ρ z) : ∃ x ∈ S, dist x z ≤ ρ + 2 * step := by
  obtain ⟨a, b, ha, hb, hsol, hemp⟩ := hz
  obtain ⟨p, hp⟩ := lattice_near origin hstep a
  obtain ⟨q, hq⟩ := lattice_near origin hstep b
  have sp : f.value (worldPos origin step p) ≤ 0 := hsol _ hp
  have sq : ¬ f.value (worldPos origin step q) ≤ 0 := hemp _ hq
  obtain ⟨D, e, he, hbox⟩ := box_change (fun p => decide (f.value (worldPos origin step p) ≤ 0)) (p := p) (q := q) (by simp [sp, sq])
  have hcr : Crosses f (worldPos origin step) D e := by
    unfold Crosses
    simpa using he
  have hr : 0 ≤ ρ := dist_nonneg.trans ha
  obtain ⟨r, hS, t, ht, hv⟩ := h D e hcr
  obtain ⟨va, ga, ka⟩ := hv t.1 (mem_corners.2 (Or.inl rfl))
  obtain ⟨vb, gb, -⟩ := hv t.2.1 (mem_corners.2 (Or.inr (Or.inl rfl)))
  obtain ⟨vc, gc, -⟩ := hv t.2.2 (mem_corners.2 (Or.inr (Or.inr rfl)))
  obtain ⟨w, hw⟩ : ∃ w, w = meshToWorld r va.position := ⟨_, rfl⟩
  have hpt : point ![w.x, w.y, w.z] = w := rfl
  refine ⟨![w.x, w.y, w.z], hS ⟨t, ht, va, vb, vc, ga, gb, gc, ?_⟩, ?_⟩
  · rw [hpt, hw]
    exact ⟨1, 0, 0, by norm_num, le_rfl, le_rfl, by norm_num, by simp⟩
  have np := get_of_dist (x := gridPoint origin step p) (z := z) ((dist_triangle _ a _).trans (by linarith : _ ≤ ρ + step))
  have nq := get_of_dist (x := gridPoint origin step q) (z := z) ((dist_triangle _ b _).trans (by linarith : _ ≤ ρ + step))
  refine dist_of_get (by linarith) fun A => ?_
  rw [hpt, hw]
  have k := ka ((worldPos origin step e).set D ((worldPos origin step e).get D + 0 * step)) ⟨0, le_rfl, zero_le_one, rfl⟩ A
  have hval : ((worldPos origin step e).set D ((worldPos origin step e).get D + 0 * step)).get A = (e.get A : ℝ) * step + origin.get A := by
    rw [vec3_get_set]
    split_ifs with hA
    · subst hA; rw [worldPos_get]; ring
    · rw [worldPos_get]
  rw [hval] at k
  have p1 := abs_le.1 (np A)
  have q1 := abs_le.1 (nq A)
  rw [point_gridPoint, worldPos_get] at p1 q1
  obtain ⟨b1, b2⟩ := hbox A
  have b2' : e.get A ≤ max (p.get A) (q.get A) := by
    refine le_trans ?_ b2
    rw [edgeEnd_get]
    split_ifs <;> omega
  have k := abs_le.1 k
  rw [abs_le]
  constructor
  · rcases min_le_iff.1 b1 with h | h
    · have h' : (p.get A : ℝ) ≤ e.get A := by exact_mod_cast h
      nlinarith
    · have h' : (q.get A : ℝ) ≤ e.get A := by exact_mod_cast h
      nlinarith
  · rcases le_max_iff.1 b2' with h | h
    · have h' : (e.get A : ℝ) ≤ p.get A := by exact_mod_cast h
      nlinarith
    · have h' : (e.get A : ℝ) ≤ q.get A := by exact_mod_cast h
      nlinarith

/-- For small steps there are inner and outer points near every point of the surface. -/
theorem thick_sides (hB : Bornology.IsBounded (Body f)) (hT : ThickBody f) {ε : ℝ} (hε : 0 < ε) :
    ∃ δ > 0, ∀ step, step < δ → ∀ z ∈ Surface f, ThickAt f step ε z := by
  have hc : IsCompact (Surface f) := Metric.isCompact_of_isClosed_isBounded isClosed_frontier (hB.closure.subset frontier_subset_closure)
  have hloc : ∀ z ∈ Surface f, ∃ δ > 0, ∀ step, step < δ → ∃ a b, dist a z ≤ ε / 2 ∧ dist b z ≤ ε / 2 ∧
      (∀ x, dist x a ≤ step → x ∈ Body f) ∧ ∀ x, dist x b ≤ step → x ∉ Body f := by
    intro z hz
    obtain ⟨a, ha, hda⟩ := Metric.mem_closure_iff.1 (hT.1 hz) (ε / 2) (by linarith)
    obtain ⟨b, hb, hdb⟩ := Metric.mem_closure_iff.1 (hT.2 hz) (ε / 2) (by linarith)
    obtain ⟨ra, ra0, hra⟩ := Metric.isOpen_iff.1 isOpen_interior a ha
    obtain ⟨rb, rb0, hrb⟩ := Metric.isOpen_iff.1 isOpen_interior b hb
    refine ⟨min ra rb, lt_min ra0 rb0, fun step hs => ⟨a, b, by rw [dist_comm]; exact hda.le, by rw [dist_comm]; exact hdb.le, fun x hx => ?_, fun x hx => ?_⟩⟩
    · exact interior_subset (hra (Metric.mem_ball.2 (lt_of_le_of_lt hx (hs.trans_le (min_le_left _ _)))))
    · exact interior_subset (hrb (Metric.mem_ball.2 (lt_of_le_of_lt hx (hs.trans_le (min_le_right _ _)))))
  choose! δ hδ hab using hloc
  obtain ⟨T, hTs, hTc⟩ := hc.elim_nhds_subcover (fun z => Metric.ball z (ε / 2)) fun z _ => Metric.ball_mem_nhds z (by linarith)
  obtain ⟨d, hd, hdT⟩ : ∃ d > 0, ∀ z ∈ T, d ≤ δ z := by
    clear hTc
    induction T using Finset.induction_on with
    | empty => exact ⟨1, one_pos, by simp⟩
    | insert z T _ ih =>
      obtain ⟨d, hd, hdT⟩ := ih fun z hz => hTs z (Finset.mem_insert_of_mem hz)
      refine ⟨min d (δ z), lt_min hd (hδ z (hTs z (Finset.mem_insert_self z T))), fun w hw => ?_⟩
      rcases Finset.mem_insert.1 hw with rfl | hw
      · exact min_le_right _ _
      · exact (min_le_left _ _).trans (hdT w hw)
  refine ⟨d, hd, fun step hlt z hz => ?_⟩
  obtain ⟨w, hw, hzw⟩ := mem_iUnion₂.1 (hTc hz)
  rw [Metric.mem_ball, dist_comm] at hzw
  obtain ⟨a, b, h1, h2, h3, h4⟩ := hab w (hTs w hw) step (hlt.trans_le (hdT w hw))
  exact ⟨a, b, (dist_triangle _ w _).trans (by linarith), (dist_triangle _ w _).trans (by linarith), h3, h4⟩

theorem crosses_of_crossing {g g' : Grid ℝ} (hg : g.Reachable) (hp : ProperField f) (h : g.fill f sv = some g') {D : Axis} {p : IVec3}
    (hc : CrossingEdge g' D p) : Crosses f (worldPos g.globalPos g.step) D p := by
  have hends := edgeVertices_iff.1 hc.1
  have hs := hc.2
  rw [solidAt_fill hg hp h hends.1, solidAt_fill hg hp h hends.2] at hs
  intro hiff
  apply hs
  rw [decide_eq_decide]
  exact hiff

theorem crossing_of_crosses {g g' : Grid ℝ} (hg : g.Reachable) (hp : ProperField f) (h : g.fill f sv = some g') {D : Axis} {p : IVec3}
    (hcells : ∀ P ∈ cellsAroundEdge D p, CellIn g'.maxCoord P) (hc : Crosses f (worldPos g.globalPos g.step) D p) : CrossingEdge g' D p := by
  have hv : ∀ v ∈ edgeVertices D p, InCube g'.maxCoord v := by
    intro v hv
    obtain ⟨c0, c1, c2, c3, hcs, -⟩ := (C04_around_edge_geometry D p).2.2
    have hc0 : c0 ∈ cellsAroundEdge D p := by rw [hcs]; simp
    exact hcells c0 hc0 v ((C04_around_edge_geometry D p).2.1 c0 hc0 v hv)
  refine ⟨hv, ?_⟩
  have hends := edgeVertices_iff.1 hv
  rw [solidAt_fill hg hp h hends.1, solidAt_fill hg hp h hends.2]
  intro e
  rw [decide_eq_decide] at e
  exact hc e

theorem cubeIn_has {h : Int} {c : Cube} (hin : CubeIn h c) {P : IVec3} (hP : c.Has P) : CellIn h P := by
  intro v hv
  apply hin
  have gx := cellVertices_get hv .X
  have gy := cellVertices_get hv .Y
  have gz := cellVertices_get hv .Z
  unfold Cube.Has at hP
  unfold Cube.Closed
  simp only [IVec3.get] at gx gy gz
  omega

/-- A vertex in a cell around an edge is near the edge. -/
theorem vertex_near (hstep : 0 < step) {r : PlacedMesh ℝ} (r1 : r.globalPos = origin) (r2 : r.globalScale = step) {D : Axis} {p P : IVec3}
    (he : EdgeOfCell P D p) {i : Nat} {v : MeshVertex ℝ} (hv : r.mesh.vertices[i]? = some v) (hin : InCell P v.position) :
    VertexNear r origin step D p i :=
  ⟨v, hv, fun _ hz => cell_edge_near hstep hz he hin r1 r2⟩

theorem dual_inCell {env : DcEnv ℝ} {g : Grid ℝ} {solver : Qef ℝ 3} {P : IVec3} {v : MeshVertex ℝ} (h : DualVertex env g solver P v) :
    InCell P v.position := by
  intro A
  cases A
  exacts [h.inside_x, h.inside_y, h.inside_z]

/-- The mesh of uniform dual contouring is made of triangles around the crossed edges. -/
theorem uniform_around {g g' : Grid ℝ} (hg : g.Reachable) (hstep : 0 < g.step) (hp : ProperField f) (h : g.fill f sv = some g')
    {env : DcEnv ℝ} (hsort : IsSort env.srt) {solver q : Qef ℝ 3} (hpinv : 0 < solver.pinvTolerance)
    {r : PlacedMesh ℝ} (hr : dualContouring env g' solver = some (q, r)) : AroundEdges f r g.globalPos g.step (CellIn g.maxCoord) := by
  have hF := C07_filled hg hp h
  obtain ⟨g'', hfill, ⟨-, hhalf, hpos, hst⟩, -⟩ := C06_fill_materials hg f sv
  rw [h] at hfill; cases hfill
  obtain ⟨⟨cells, hcells⟩, q', r', hr', r1, r2, -, hv⟩ := C18_vertices (env := env) hF hsort hpinv
  rw [hr] at hr'; cases hr'
  obtain ⟨-, htri, hin, -⟩ := C19_quads hF hsort hpinv hr hcells
  obtain ⟨hvl, hv⟩ := hv cells hcells
  rw [hpos] at r1
  rw [hst] at r2
  have hvert : ∀ {D p}, ∀ c ∈ cellsAroundEdge D p, c ∈ cells → VertexNear r g.globalPos g.step D p (cells.idxOf c) := by
    intro D p c hc hcm
    have hlt := List.idxOf_lt_length_of_mem hcm
    obtain ⟨v, hv1, hv2⟩ := hv (cells.idxOf c) c (by rw [List.getElem?_eq_getElem hlt, List.getElem_idxOf])
    exact vertex_near hstep r1 r2 (edge_of_around hc) hv1 (dual_inCell hv2)
  have hquad : ∀ {e : GridEdge ℝ} {c0 c1 c2 c3 : IVec3}, cellsAroundEdge e.axis e.lesser = [c0, c1, c2, c3] →
      InteriorEdge g'.maxCoord e.axis e.lesser → edgeQuad g'.maxCoord cells e =
        quadTriangles (cells.idxOf c0) (cells.idxOf c1) (cells.idxOf c2) (cells.idxOf c3) e.lesserSolid := by
    intro e c0 c1 c2 c3 hcs hint
    have hall : (cellsAroundEdge e.axis e.lesser).all (fun c => decide (∀ v ∈ cellVertices c, InCube g'.maxCoord v)) = true := by
      rw [List.all_eq_true]
      intro c hc
      exact decide_eq_true (hint c hc)
    unfold edgeQuad
    rw [if_pos hall, hcs]
    rfl
  constructor
  · intro t htm
    rw [htri] at htm
    obtain ⟨e, he, hte⟩ := List.mem_flatMap.1 htm
    have hint : InteriorEdge g'.maxCoord e.axis e.lesser := by
      unfold edgeQuad at hte
      split_ifs at hte with hall
      · intro c hc
        exact of_decide_eq_true ((List.all_eq_true.1 hall) c hc)
      · simp at hte
    have hmem := (mem_edgeList hF).1 he
    obtain ⟨p, -, hcr, hrec⟩ := ((C07_fill_edges hg h e.axis).1 e).1 hmem
    have hpl : e.lesser = p := by rw [hrec]; rfl
    refine ⟨e.axis, p, hcr, ?_⟩
    obtain ⟨c0, c1, c2, c3, hcs, -⟩ := (C04_around_edge_geometry e.axis e.lesser).2.2
    rw [hquad hcs hint] at hte
    intro i hi
    have hcm := hin e he hint
    have hv' : ∀ c ∈ cellsAroundEdge e.axis e.lesser, VertexNear r g.globalPos g.step e.axis p (cells.idxOf c) := by
      intro c hc
      rw [← hpl]
      exact hvert c hc (hcm c hc)
    rcases dcQuad_corner hte (mem_corners.1 hi) with rfl | rfl | rfl | rfl <;> apply hv' <;> rw [hcs] <;> simp
  · intro D p hcr hcells'
    have hm : g'.maxCoord = g.maxCoord := hhalf
    rw [← hm] at hcells'
    have hint : InteriorEdge g'.maxCoord D p := hcells'
    have hends : ∀ v ∈ edgeVertices D p, InCube g'.maxCoord v := by
      intro v hv
      obtain ⟨c0, c1, c2, c3, hcs, -⟩ := (C04_around_edge_geometry D p).2.2
      have hc0 : c0 ∈ cellsAroundEdge D p := by rw [hcs]; simp
      exact hcells' c0 hc0 v ((C04_around_edge_geometry D p).2.1 c0 hc0 v hv)
    have hmem : edgeRecord f sv (worldPos g.globalPos g.step) g.step D p ∈ g'.edges D :=
      ((C07_fill_edges hg h D).1 _).2 ⟨p, by rw [← hm]; exact hends, hcr, rfl⟩
    obtain ⟨e, he⟩ : ∃ e, e = edgeRecord f sv (worldPos g.globalPos g.step) g.step D p := ⟨_, rfl⟩
    rw [← he] at hmem
    have hax := hF.edge_axis D e hmem
    have hles : e.lesser = p := by rw [he]; rfl
    have hel : e ∈ edgeList g' := (mem_edgeList hF).2 (by rw [hax]; exact hmem)
    subst hax
    subst hles
    have hcm := hin e hel hint
    obtain ⟨c0, c1, c2, c3, hcs, -⟩ := (C04_around_edge_geometry e.axis e.lesser).2.2
    obtain ⟨t, ht, -⟩ := dcQuad_side (v := fun k => cells.idxOf ((![c0, c1, c2, c3] : Fin 4 → IVec3) k)) e.lesserSolid (k := 0) (k' := 1) (by unfold ringNext; decide)
    refine ⟨t, ?_, fun i hi => ?_⟩
    · rw [htri]
      exact List.mem_flatMap.2 ⟨e, hel, by rw [hquad hcs hint]; exact ht⟩
    · rcases dcQuad_corner ht (mem_corners.1 hi) with rfl | rfl | rfl | rfl
      · exact hvert c0 (by rw [hcs]; simp) (hcm c0 (by rw [hcs]; simp))
      · exact hvert c1 (by rw [hcs]; simp) (hcm c1 (by rw [hcs]; simp))
      · exact hvert c2 (by rw [hcs]; simp) (hcm c2 (by rw [hcs]; simp))
      · exact hvert c3 (by rw [hcs]; simp) (hcm c3 (by rw [hcs]; simp))

/-- The mesh of an unsimplified DC octree is made of triangles around the crossed edges. -/
theorem octree_around {g g' : Grid ℝ} (hg : g.Reachable) (hstep : 0 < g.step) (hp : ProperField f) (h : g.fill f sv = some g')
    {env : DcEnv ℝ} {o o' o'' : DcOctree ℝ} {solver q' : Qef ℝ 3} (hpinv : 0 < solver.pinvTolerance) {epsilon : ℝ}
    (ho1 : o.globalPos = g.globalPos) (ho2 : o.globalScale = g.step) (hin : CubeIn g'.maxCoord (rootCube o.level))
    (hb : o.build env g' solver epsilon false = some (q', o'))
    {r : PlacedMesh ℝ} (hc : o'.contour = some (r, o'')) : AroundEdges f r g.globalPos g.step (rootCube o.level).Has := by
  have hF := C07_filled hg hp h
  obtain ⟨q1, o1, o2, r', cells, edges, hb', hc', hnd, hcells, hverts, -, hedges, hem, htri⟩ :=
    C23_unsimplified (env := env) hF o (solver := solver) epsilon hin hpinv
  rw [hb] at hb'; cases hb'
  obtain ⟨r'', o3, visits, hc'', r1, r2, -⟩ := C22_contour hF hin hb
  rw [hc] at hc' hc''; cases hc'; cases hc''
  rw [ho1] at r1
  rw [ho2] at r2
  have hvert : ∀ {D p}, ∀ P ∈ cellsAroundEdge D p, (⟨P, 0⟩ : Cube) ∈ cells → VertexNear r g.globalPos g.step D p (cells.idxOf ⟨P, 0⟩) := by
    intro D p P hP hcm
    have hlt := List.idxOf_lt_length_of_mem hcm
    have hlt2 : cells.idxOf ⟨P, 0⟩ < r.mesh.vertices.length := by rw [← hverts.length_eq]; exact hlt
    have hd := (List.forall₂_iff_get.1 hverts).2 _ hlt hlt2
    simp only [List.get_eq_getElem, List.getElem_idxOf] at hd
    exact vertex_near hstep r1 r2 (edge_of_around hP) (List.getElem?_eq_getElem hlt2) (dual_inCell hd)
  have hq4 : ∀ {D p} {t : Nat × Nat × Nat}, (D, p) ∈ edges → t ∈ unitQuad g' cells D p → ∀ i ∈ corners t, VertexNear r g.globalPos g.step D p i := by
    intro D p t hmem ht i hi
    obtain ⟨c0, c1, c2, c3, hcs, -⟩ := (C04_around_edge_geometry D p).2.2
    have hv : ∀ c ∈ cellsAroundEdge D p, VertexNear r g.globalPos g.step D p (cells.idxOf ⟨c, 0⟩) := fun c hc => hvert c hc (hem D p hmem c hc)
    rw [hcs] at hv
    unfold unitQuad at ht
    rw [hcs] at ht
    simp only [List.map_cons, List.map_nil] at ht
    have v0 := hv c0 (by simp)
    have v1 := hv c1 (by simp)
    have v2 := hv c2 (by simp)
    have v3 := hv c3 (by simp)
    split_ifs at ht <;> simp only [List.mem_cons, List.not_mem_nil, or_false] at ht <;> rcases ht with rfl | rfl <;>
      rcases mem_corners.1 hi with rfl | rfl | rfl <;> assumption
  constructor
  · intro t ht
    rw [htri] at ht
    obtain ⟨⟨D, p⟩, hmem, hte⟩ := List.mem_flatMap.1 ht
    exact ⟨D, p, crosses_of_crossing hg hp h ((hedges D p).1 hmem).1, hq4 hmem hte⟩
  · intro D p hcr hcells'
    have hmem := (hedges D p).2 ⟨crossing_of_crosses hg hp h (fun P hP => cubeIn_has hin (hcells' P hP)) hcr, hcells'⟩
    obtain ⟨t, ht⟩ : ∃ t, t ∈ unitQuad g' cells D p := by
      obtain ⟨c0, c1, c2, c3, hcs, -⟩ := (C04_around_edge_geometry D p).2.2
      unfold unitQuad
      rw [hcs]
      simp only [List.map_cons, List.map_nil]
      split_ifs
      · exact ⟨_, List.mem_cons_self⟩
      · exact ⟨_, List.mem_cons_self⟩
    exact ⟨t, by rw [htri]; exact List.mem_flatMap.2 ⟨(D, p), hmem, ht⟩, hq4 hmem ht⟩

/-- The mesh of an MDC octree for a negative error bound is made of triangles around the crossed edges. -/
theorem mdc_around {g g' : Grid ℝ} (hg : g.Reachable) (hstep : 0 < g.step) (hp : ProperField f) (h : g.fill f sv = some g')
    {env : DcEnv ℝ} {o o' o1 o2 : MdcOctree ℝ} {solver q' : Qef ℝ 3}
    (ho1 : o.globalPos = g.globalPos) (ho2 : o.globalScale = g.step) (hin : CubeIn g'.maxCoord (rootCube o.level))
    (hsz : 4 * crossingCells g' (rootCube o.level) + 3 < 2 ^ 32)
    (hb : o.build env g' solver = some (q', o')) {bounds : List ℝ} (h1 : contourAll o' bounds = some o1) {ε : ℝ} (hε : ε < 0)
    {r : PlacedMesh ℝ} (h2 : o1.contour ε = some (r, o2)) : AroundEdges f r g.globalPos g.step (rootCube o.level).Has := by
  have hF := C07_filled hg hp h
  have hsc : o.globalScale ≠ 0 := by rw [ho2]; exact hstep.ne'
  obtain ⟨M, V, hS, hall⟩ := C28_contour hF hin hsz (mul_self_pos.2 hsc) hb
  obtain ⟨o1', e1, e2⟩ := hall bounds
  rw [h1] at e1; cases e1
  obtain ⟨o2', e3⟩ := e2 ε
  rw [h2] at e3; cases e3
  obtain ⟨es, -, hes, htri⟩ := (hS.mesh ε).quads
  have hcellOf : ∀ {n v}, (M ε).vertices[n]? = some v → ∃ c : Cube, c.k = 0 ∧ c.ClosedR v.position ∧
      ∀ x : CellCrossing, x.In g' (rootCube o.level) → V ε x = n → x.cell = c.lo := by
    intro n v hv
    obtain ⟨c, hd, hcl, hhas, -, -, -, hfit⟩ := C59_vertices hS ε hv
    have hk : c.k = 0 := by
      rcases hfit with hk | ⟨w, hw, -, hwe⟩
      · exact hk
      · obtain ⟨q1, hq⟩ := fit_box hw
        have := box_error hq
        have : ε / (o.globalScale * o.globalScale) < 0 := div_neg_of_neg_of_pos hε (mul_self_pos.2 hsc)
        linarith
    refine ⟨c, hk, hcl, fun x hx e => ?_⟩
    have := hhas x hx e
    unfold Cube.Has Cube.side at this
    rw [hk] at this
    obtain ⟨u, hu⟩ : ∃ u, u = x.cell := ⟨_, rfl⟩
    rw [← hu] at this ⊢
    obtain ⟨ux, uy, uz⟩ := u
    obtain ⟨⟨lx, ly, lz⟩, k⟩ := c
    simp only [IVec3.mk.injEq]
    dsimp only at this
    simp only [pow_zero] at this
    omega
  have hvert : ∀ {e : LEdge}, CrossingEdge g' e.axis e.at_ → ¬ OnBorder (rootCube o.level) e.axis e.at_ → ∀ i,
      VertexNear ⟨M ε, o.globalPos, o.globalScale⟩ g.globalPos g.step e.axis e.at_ (V ε (e.seen i)) := by
    intro e hcr hbd i
    have hIn := edge_piece_in hcr hbd i
    have hlt := (hS.mesh ε).valid _ hIn
    have hv := List.getElem?_eq_getElem hlt
    obtain ⟨c, hk, hcl, hx⟩ := hcellOf hv
    have hcell := hx _ hIn rfl
    refine vertex_near hstep ho1 ho2 (P := c.lo) ?_ hv ?_
    · rw [← hcell]
      exact edgeCorner_of _ _ i
    · intro A
      have := cubeR_get hcl A
      rw [hk] at this
      simpa using this
  constructor
  · intro t ht
    dsimp only at ht
    rw [htri] at ht
    obtain ⟨e, he, hte⟩ := List.mem_flatMap.1 ht
    obtain ⟨hcr, hbd⟩ := (hes e).1 he
    refine ⟨e.axis, e.at_, crosses_of_crossing hg hp h hcr, fun i hi => ?_⟩
    rcases octQuad_mem hte i (mem_corners.1 hi) with rfl | rfl | rfl | rfl <;> exact hvert hcr hbd _
  · intro D p hcr hcells'
    have hce := crossing_of_crosses hg hp h (fun P hP => cubeIn_has hin (hcells' P hP)) hcr
    have hbd : ¬ OnBorder (rootCube o.level) D p := by
      rintro ⟨R, hR, hn⟩
      exact hn (hcells' R hR)
    have he := (hes ⟨D, p⟩).2 ⟨hce, hbd⟩
    have hne : ∀ i j, i ≠ j → V ε ((⟨D, p⟩ : LEdge).seen i) ≠ V ε ((⟨D, p⟩ : LEdge).seen j) := by
      intro i j hij e
      have hi := edge_piece_in (e := ⟨D, p⟩) hce hbd i
      have hj := edge_piece_in (e := ⟨D, p⟩) hce hbd j
      have hlt := (hS.mesh ε).valid _ hi
      obtain ⟨c, -, -, hx⟩ := hcellOf (List.getElem?_eq_getElem hlt)
      have := (hx _ hi rfl).trans (hx _ hj e.symm).symm
      revert this hij
      simp only [LEdge.seen, Spec.edgeCorner, IVec3.mk.injEq]
      cases D <;> fin_cases i <;> fin_cases j <;> simp [edgeOff]
    obtain ⟨t, ht⟩ : ∃ t, t ∈ octQuad (V ε ((⟨D, p⟩ : LEdge).seen 0)) (V ε ((⟨D, p⟩ : LEdge).seen 1)) (V ε ((⟨D, p⟩ : LEdge).seen 2))
        (V ε ((⟨D, p⟩ : LEdge).seen 3)) (solidAt g' p) := by
      have n01 := hne 0 1 (by decide)
      have n02 := hne 0 2 (by decide)
      have n12 := hne 1 2 (by decide)
      unfold octQuad
      split_ifs
      · exact ⟨_, List.mem_filter.2 ⟨List.mem_cons_self, decide_eq_true ⟨n01, n12, n02⟩⟩⟩
      · exact ⟨_, List.mem_filter.2 ⟨List.mem_cons_self, decide_eq_true ⟨n02, n12.symm, n01⟩⟩⟩
    refine ⟨t, ?_, fun i hi => ?_⟩
    · dsimp only
      rw [htri]
      exact List.mem_flatMap.2 ⟨_, he, ht⟩
    · rcases octQuad_mem ht i (mem_corners.1 hi) with rfl | rfl | rfl | rfl <;> exact hvert (e := ⟨D, p⟩) hce hbd _

/-- Moving the lattice by a lattice vector. -/
theorem around_move {r : PlacedMesh ℝ} {at_ : IVec3} {In In' : IVec3 → Prop} (h : AroundEdges f r (worldPos origin step at_) step In)
    (hIn : ∀ P, In' (shift P at_.x at_.y at_.z) → In P) : AroundEdges f r origin step In' := by
  have hw : ∀ p, worldPos (worldPos origin step at_) step p = worldPos origin step (shift p at_.x at_.y at_.z) := by
    intro p
    unfold worldPos shift
    ext <;> push_cast <;> ring
  have hend : ∀ D p, edgeEnd D (shift p at_.x at_.y at_.z) = shift (edgeEnd D p) at_.x at_.y at_.z := by
    intro D p
    cases D <;> simp only [edgeEnd, shift, IVec3.mk.injEq] <;> omega
  have hcr : ∀ D p, Crosses f (worldPos (worldPos origin step at_) step) D p ↔ Crosses f (worldPos origin step) D (shift p at_.x at_.y at_.z) := by
    intro D p
    unfold Crosses
    rw [hw, hw, hend]
  have hv : ∀ D p i, VertexNear r (worldPos origin step at_) step D p i → VertexNear r origin step D (shift p at_.x at_.y at_.z) i := by
    rintro D p i ⟨a, ha, hz⟩
    refine ⟨a, ha, fun z hz' => hz z ?_⟩
    obtain ⟨s, s0, s1, e⟩ := hz'
    refine ⟨s, s0, s1, ?_⟩
    rw [hw]
    exact e
  constructor
  · intro t ht
    obtain ⟨D, p, hc, hi⟩ := h.near t ht
    exact ⟨D, _, (hcr D p).1 hc, fun i hm => hv D p i (hi i hm)⟩
  · intro D p hc hcells
    obtain ⟨p', rfl⟩ : ∃ p', p = shift p' at_.x at_.y at_.z := ⟨shift p (-at_.x) (-at_.y) (-at_.z), by
      obtain ⟨x, y, z⟩ := p
      simp only [shift, IVec3.mk.injEq]
      omega⟩
    obtain ⟨t, ht, hi⟩ := h.all D p' ((hcr D p').2 hc) fun P hP => hIn P (hcells _ (by
      cases D <;> simp only [cellsAroundEdge, shift, List.mem_cons, List.not_mem_nil, or_false] at hP ⊢ <;>
        rcases hP with rfl | rfl | rfl | rfl <;> simp only [IVec3.mk.injEq] <;> omega))
    exact ⟨t, ht, fun i hm => hv D p' i (hi i hm)⟩

theorem patch_around (hf : ProperField f) (hstep : 0 < step) {k : Patch} (hk : k.Computed f origin step) :
    AroundEdges f k.mesh origin step k.Has := by
  rcases hk with hk | hk | hk
  · obtain ⟨sv, g, g', env, solver, q, at_, hg, hs, hpos, hfill, hsort, hpinv, hr, hcor, hside⟩ := hk
    have := uniform_around hg (by rw [hs]; exact hstep) hf hfill hsort hpinv hr
    rw [hs, hpos] at this
    refine around_move this fun P hP => ?_
    have h1 := hP .X
    have h2 := hP .Y
    have h3 := hP .Z
    rw [hcor, hside] at h1 h2 h3
    rw [cellIn_iff]
    simp only [IVec3.get, shift] at h1 h2 h3
    omega
  · obtain ⟨sv, g, g', env, solver, q, ε, o, o', o'', at_, hg, hs, hpos, hfill, hpinv, ho1, ho2, hin, hb, hc, hcor, hside⟩ := hk
    have := octree_around hg (by rw [hs]; exact hstep) hf hfill hpinv ho1 ho2 hin hb hc
    rw [hs, hpos] at this
    refine around_move this fun P hP => ?_
    have h1 := hP .X
    have h2 := hP .Y
    have h3 := hP .Z
    rw [hcor, hside] at h1 h2 h3
    unfold Cube.Has
    simp only [IVec3.get, shift] at h1 h2 h3
    omega
  · obtain ⟨sv, g, g', env, solver, q, o, o', o1, o2, bounds, ε, at_, hg, hs, hpos, hfill, ho1, ho2, hin, hsz, hb, hb1, hε, hc, hcor, hside⟩ := hk
    have := mdc_around hg (by rw [hs]; exact hstep) hf hfill ho1 ho2 hin hsz hb hb1 hε hc
    rw [hs, hpos] at this
    refine around_move this fun P hP => ?_
    have h1 := hP .X
    have h2 := hP .Y
    have h3 := hP .Z
    rw [hcor, hside] at h1 h2 h3
    unfold Cube.Has
    simp only [IVec3.get, shift] at h1 h2 h3
    omega

/-- C93 (the meshes are near the surface): every point of the mesh of a patch differs from some point of the body's surface by at most one grid step in
each coordinate, whatever the zero finder and the solver. -/
theorem C93_near (hf : ProperField f) (hstep : 0 < step) {k : Patch} (hk : k.Computed f origin step) {x : Fin 3 → ℝ} (hx : x ∈ placedPoints k.mesh) :
    ∃ z ∈ Surface f, dist x z ≤ step :=
  around_near hstep (patch_around hf hstep hk) hx

/-- C93 (the surface is near the meshes): if patches cover the body, then each point of the surface that has a cube of side two steps in the body and one
outside the body within the distance `ρ` has a point of a mesh within `ρ` plus two steps. -/
theorem C93_complete (hf : ProperField f) (hstep : 0 < step) {ks : List Patch} (hk : ∀ k ∈ ks, k.Computed f origin step)
    (hcov : PatchesCover f origin step ks) {z : Fin 3 → ℝ} {ρ : ℝ} (hz : ThickAt f step ρ z) :
    ∃ x ∈ patchPoints ks, dist x z ≤ ρ + 2 * step := by
  refine around_between (origin := origin) hstep (fun D p hc => ?_) hz
  obtain ⟨u, hu, hsol⟩ : ∃ u, (u = p ∨ u = edgeEnd D p) ∧ f.value (worldPos origin step u) ≤ 0 := by
    by_cases h0 : f.value (worldPos origin step p) ≤ 0
    · exact ⟨p, Or.inl rfl, h0⟩
    · refine ⟨_, Or.inr rfl, ?_⟩
      by_contra h1
      exact hc ⟨fun h => (h0 h).elim, fun h => (h1 h).elim⟩
  obtain ⟨k, hkm, hcells⟩ := hcov _ hsol
  obtain ⟨t, ht, hv⟩ := (patch_around hf hstep (hk k hkm)).all D p hc fun P hP => hcells P fun a => by
    have hm : u ∈ cellVertices P := (C04_around_edge_geometry D p).2.1 P hP u (by
      rcases hu with rfl | rfl
      · cases D <;> simp [edgeVertices]
      · cases D <;> simp [edgeVertices, edgeEnd])
    obtain ⟨b1, b2⟩ := cellVertices_get hm a
    have b1' : (P.get a : ℝ) ≤ (u.get a : ℝ) := by exact_mod_cast b1
    have b2' : (u.get a : ℝ) ≤ P.get a + 1 := by exact_mod_cast b2
    rw [worldPos_get]
    constructor <;> nlinarith
  exact ⟨k.mesh, fun x hx => ⟨k, hkm, hx⟩, t, ht, hv⟩

/-- C93 (convergence): let the body be bounded and have no parts of thickness zero.  For every tolerance there is a grid step from which on the meshes of
all patches that cover the body, taken together, are that near to the surface, and the surface to the meshes. -/
theorem C93_convergence (hf : ProperField f) (hB : Bornology.IsBounded (Body f)) (hT : ThickBody f) {ε : ℝ} (hε : 0 < ε) :
    ∃ δ > 0, ∀ (origin : Vec3 ℝ) (step : ℝ) (ks : List Patch), 0 < step → step < δ → (∀ k ∈ ks, k.Computed f origin step) →
      PatchesCover f origin step ks →
      (∀ x ∈ patchPoints ks, ∃ z ∈ Surface f, dist x z < ε) ∧ ∀ z ∈ Surface f, ∃ x ∈ patchPoints ks, dist x z < ε := by
  obtain ⟨d, hd, hside⟩ := thick_sides hB hT (show 0 < ε / 4 by linarith)
  refine ⟨min d (ε / 4), lt_min hd (by linarith), fun origin step ks hs hlt hk hcov => ⟨fun x hx => ?_, fun z hz => ?_⟩⟩
  · obtain ⟨k, hkm, hx⟩ := hx
    obtain ⟨z, hz, hxz⟩ := C93_near hf hs (hk k hkm) hx
    exact ⟨z, hz, by linarith [hlt.trans_le (min_le_right d (ε / 4))]⟩
  · obtain ⟨x, hx, hxz⟩ := C93_complete hf hs hk hcov (hside step (hlt.trans_le (min_le_left _ _)) z hz)
    exact ⟨x, hx, by linarith [hlt.trans_le (min_le_right d (ε / 4))]⟩

/-- Patches of at least four cells per side around all lattice points near the body cover it. -/
theorem cover_of {C : Patch → Prop} (origin : Vec3 ℝ) (hstep : 0 < step) (hB : Bornology.IsBounded (Body f)) (hex : ∀ c : IVec3, ∃ k : Patch, C k ∧
    ∀ P : IVec3, (∀ a, c.get a - 2 ≤ P.get a ∧ P.get a ≤ c.get a + 1) → k.Has P) :
    ∃ ks : List Patch, (∀ k ∈ ks, C k) ∧ PatchesCover f origin step ks := by
  choose K hK hcells using hex
  obtain ⟨B, hBB⟩ : ∃ B : ℝ, ∀ q : Vec3 ℝ, f.value q ≤ 0 → ∀ a, |q.get a| ≤ B := by
    obtain ⟨B, hb⟩ := hB.subset_closedBall 0
    refine ⟨B, fun q hq a => ?_⟩
    have h0 : (![q.x, q.y, q.z] : Fin 3 → ℝ) ∈ Body f := hq
    have h1 := hb h0
    rw [Metric.mem_closedBall] at h1
    have h2 := fun i => (dist_le_pi_dist (![q.x, q.y, q.z] : Fin 3 → ℝ) 0 i).trans h1
    simp only [Real.dist_eq, Pi.zero_apply, sub_zero] at h2
    cases a
    · exact h2 0
    · exact h2 1
    · exact h2 2
  obtain ⟨M, hM⟩ : ∃ M : Nat, ∀ a, (|B| + |origin.get a|) / step ≤ M := by
    refine ⟨⌈(|B| + (|origin.x| + |origin.y| + |origin.z|)) / step⌉₊, fun a => le_trans ?_ (Nat.le_ceil _)⟩
    apply div_le_div_of_nonneg_right _ hstep.le
    have h1 := abs_nonneg origin.x
    have h2 := abs_nonneg origin.y
    have h3 := abs_nonneg origin.z
    cases a <;> simp only [Vec3.get] <;> linarith
  refine ⟨((boxCells (2 * (M + 1)) ⟨-(M + 1 : Int), -(M + 1 : Int), -(M + 1 : Int)⟩).toList).map K, ?_, ?_⟩
  · intro k hk
    obtain ⟨c, -, rfl⟩ := List.mem_map.1 hk
    exact hK c
  · intro q hq
    let c : IVec3 := ⟨⌊(q.x - origin.x) / step⌋, ⌊(q.y - origin.y) / step⌋, ⌊(q.z - origin.z) / step⌋⟩
    have hc : ∀ a, c.get a = ⌊(q.get a - origin.get a) / step⌋ := by intro a; cases a <;> rfl
    have hb : ∀ a, -(M + 1 : Int) ≤ c.get a ∧ c.get a ≤ M := by
      intro a
      have h1 := abs_le.1 (hBB q hq a)
      have h2 := hM a
      rw [div_le_iff₀ hstep] at h2
      have h3 := neg_abs_le (origin.get a)
      have h4 := le_abs_self (origin.get a)
      have h5 := le_abs_self B
      rw [hc]
      constructor
      · rw [Int.le_floor, le_div_iff₀ hstep]
        push_cast
        nlinarith
      · have : ((⌊(q.get a - origin.get a) / step⌋ : Int) : ℝ) ≤ (M : Int) := by
          refine (Int.floor_le _).trans ?_
          rw [div_le_iff₀ hstep]
          push_cast
          nlinarith
        exact_mod_cast this
    refine ⟨K c, List.mem_map.2 ⟨c, ?_, rfl⟩, fun P hP => hcells c P fun a => ?_⟩
    · rw [Finset.mem_toList, mem_boxCells (h := M + 1) (by push_cast; ring), cellIn_iff]
      have b1 := hb .X
      have b2 := hb .Y
      have b3 := hb .Z
      simp only [IVec3.get] at b1 b2 b3
      omega
    · have hf1 := Int.floor_le ((q.get a - origin.get a) / step)
      have hf2 := Int.lt_floor_add_one ((q.get a - origin.get a) / step)
      rw [← hc, le_div_iff₀ hstep] at hf1
      rw [← hc, div_lt_iff₀ hstep] at hf2
      obtain ⟨k1, k2⟩ := hP a
      have j1 : (P.get a : ℝ) < c.get a + 1 := by nlinarith
      have j2 : (c.get a : ℝ) ≤ P.get a + 1 := by nlinarith
      have j1' : P.get a < c.get a + 1 := by exact_mod_cast j1
      have j2' : c.get a ≤ P.get a + 1 := by exact_mod_cast j2
      omega

/-- C93 (coverings): for every bounded body, every origin and step and each of the three methods there are finitely many patches of 16 cells per side
that cover the body: one can always mesh finely enough. -/
theorem C93_cover (hf : ProperField f) (sv : ZeroFinder ℝ) {env : DcEnv ℝ} (hsort : IsSort env.srt) (origin : Vec3 ℝ) (hstep : 0 < step)
    (hB : Bornology.IsBounded (Body f)) :
    (∃ ks : List Patch, (∀ k ∈ ks, k.Uniform f origin step ∧ k.side = 16) ∧ PatchesCover f origin step ks) ∧
    (∃ ks : List Patch, (∀ k ∈ ks, k.DcOctree f origin step ∧ k.side = 16) ∧ PatchesCover f origin step ks) ∧
    ∃ ks : List Patch, (∀ k ∈ ks, k.MdcOctree f origin step ∧ k.side = 16) ∧ PatchesCover f origin step ks := by
  have hpinv : 0 < (Qef.new3 : Qef ℝ 3).pinvTolerance := by norm_num [Qef.new3]
  have hgrid : ∀ c : IVec3, ∃ g g' : Grid ℝ, g.Reachable ∧ g.step = step ∧ g.globalPos = worldPos origin step c ∧ g.fill f sv = some g' ∧
      g.maxCoord = 8 ∧ g'.maxCoord = 8 ∧ Filled g' := by
    intro c
    obtain ⟨g, hg, hp, ht, hm⟩ : ∃ g : Grid ℝ, Grid.mk' 16 (worldPos origin step c) step = .ok g ∧
        g.globalPos = worldPos origin step c ∧ g.step = step ∧ g.maxCoord = 8 := ⟨_, rfl, rfl, rfl, rfl⟩
    have hr : g.Reachable := .mk hg
    obtain ⟨g', e, ⟨-, hh, -, -⟩, -⟩ := C06_fill_materials hr f sv
    exact ⟨g, g', hr, ht, hp, e, hm, by rw [← hm]; exact hh, C07_filled hr hf e⟩
  have hrc : rootCube 4 = ⟨⟨-8, -8, -8⟩, 4⟩ := rfl
  have hin : CubeIn 8 (rootCube 4) := by
    intro p hp
    rw [hrc] at hp
    unfold Cube.Closed Cube.side at hp
    unfold InCube
    dsimp only at hp
    omega
  have hhas : ∀ (c P : IVec3) (r : PlacedMesh ℝ), (∀ a, c.get a - 2 ≤ P.get a ∧ P.get a ≤ c.get a + 1) →
      (Patch.mk ⟨c.x - 8, c.y - 8, c.z - 8⟩ 16 r).Has P := by
    intro c P r hP a
    have := hP a
    have e : (⟨c.x - 8, c.y - 8, c.z - 8⟩ : IVec3).get a = c.get a - 8 := by cases a <;> rfl
    dsimp only
    rw [e]
    omega
  have hcor : ∀ (c : IVec3) (a : Axis), (⟨c.x - 8, c.y - 8, c.z - 8⟩ : IVec3).get a = c.get a + (rootCube 4).lo.get a := by
    intro c a
    cases a <;> rfl
  refine ⟨cover_of origin hstep hB fun c => ?_, cover_of origin hstep hB fun c => ?_, cover_of origin hstep hB fun c => ?_⟩
  · obtain ⟨g, g', hg, hs, hp, hfill, hm, hm', hF⟩ := hgrid c
    obtain ⟨-, q, r, hres, -⟩ := C18_vertices (env := env) hF hsort hpinv
    refine ⟨⟨⟨c.x - 8, c.y - 8, c.z - 8⟩, 16, r⟩, ⟨⟨sv, g, g', env, Qef.new3, q, c, hg, hs, hp, hfill, hsort, hpinv, hres, fun a => ?_, ?_⟩, rfl⟩,
      fun P hP => hhas c P r hP⟩
    · rw [hm]; cases a <;> rfl
    · rw [hm]; rfl
  · obtain ⟨g, g', hg, hs, hp, hfill, hm, hm', hF⟩ := hgrid c
    obtain ⟨o, ho, ho1, ho2⟩ : ∃ o : DcOctree ℝ, o.level = 4 ∧ o.globalPos = g.globalPos ∧ o.globalScale = g.step :=
      ⟨⟨4, g.globalPos, g.step, .leaf ⟨0, fun _ => .Empty, none, none⟩⟩, rfl, rfl, rfl⟩
    have hin' : CubeIn g'.maxCoord (rootCube o.level) := by rw [hm', ho]; exact hin
    obtain ⟨q', o', o'', r, cells, edges, hb, hc, -⟩ := C23_unsimplified (env := env) hF o (solver := Qef.new3) 1 hin' hpinv
    refine ⟨⟨⟨c.x - 8, c.y - 8, c.z - 8⟩, 16, r⟩, ⟨⟨sv, g, g', env, Qef.new3, q', 1, o, o', o'', c, hg, hs, hp, hfill, hpinv, ho1, ho2, hin', hb, hc,
      fun a => ?_, ?_⟩, rfl⟩, fun P hP => hhas c P r hP⟩
    · rw [ho]; exact hcor c a
    · rw [ho]; rfl
  · obtain ⟨g, g', hg, hs, hp, hfill, hm, hm', hF⟩ := hgrid c
    obtain ⟨o, ho, ho1, ho2⟩ : ∃ o : MdcOctree ℝ, o.level = 4 ∧ o.globalPos = g.globalPos ∧ o.globalScale = g.step :=
      ⟨⟨4, g.globalPos, g.step, .leaf ⟨0, fun _ => .Empty, 0, []⟩, []⟩, rfl, rfl, rfl⟩
    have hin' : CubeIn g'.maxCoord (rootCube o.level) := by rw [hm', ho]; exact hin
    have hsz : 4 * crossingCells g' (rootCube o.level) + 3 < 2 ^ 32 := C28_sizes g' (by rw [ho]; norm_num)
    have hsc : o.globalScale ≠ 0 := by rw [ho2, hs]; exact hstep.ne'
    obtain ⟨q', o', o1, hb, -⟩ := C28_completes (env := env) hF o hin' (mul_self_pos.2 hsc) hpinv (Or.inr (by rw [ho]; decide)) [1]
    obtain ⟨M, V, -, hall⟩ := C28_contour hF hin' hsz (mul_self_pos.2 hsc) hb
    obtain ⟨o1', e1, e2⟩ := hall [1]
    obtain ⟨o2, e3⟩ := e2 (-1)
    refine ⟨⟨⟨c.x - 8, c.y - 8, c.z - 8⟩, 16, _⟩, ⟨⟨sv, g, g', env, Qef.new3, q', o, o', o1', o2, [1], -1, c, hg, hs, hp, hfill, ho1, ho2, hin', hsz,
      hb, e1, by norm_num, e3, fun a => ?_, ?_⟩, rfl⟩, fun P hP => hhas c P _ hP⟩
    · rw [ho]; exact hcor c a
    · rw [ho]; rfl

/-- Non-vacuity of C93: the cube of side 3 is such a body, and for every tolerance it can be meshed with grids of 16 cells per side so that the meshes are
that near to the surface and the surface is that near to the meshes. -/
example {env : DcEnv ℝ} (hsort : IsSort env.srt) : Bornology.IsBounded (Body boxField) ∧ ThickBody boxField ∧ (Surface boxField).Nonempty ∧
    ∀ ε > 0, ∃ (step : ℝ) (ks : List Patch), 0 < step ∧ (∀ k ∈ ks, k.Uniform boxField ⟨0, 0, 0⟩ step ∧ k.side = 16) ∧
      (∀ x ∈ patchPoints ks, ∃ z ∈ Surface boxField, dist x z < ε) ∧ ∀ z ∈ Surface boxField, ∃ x ∈ patchPoints ks, dist x z < ε := by
  have hb : Bornology.IsBounded (Body boxField) := by rw [boxField_body]; exact Metric.isBounded_closedBall
  have hprop : ProperField boxField := by intro q _; simp [boxField]
  have hT : ThickBody boxField := by
    unfold ThickBody Surface
    rw [boxField_body]
    constructor
    · rw [interior_closedBall _ (by norm_num), closure_ball _ (by norm_num)]
      exact Metric.isClosed_closedBall.frontier_subset
    · rw [interior_compl, Metric.isClosed_closedBall.closure_eq, ← frontier_compl]
      exact frontier_subset_closure
  refine ⟨hb, hT, ?_, fun ε hε => ?_⟩
  · unfold Surface
    rw [boxField_body, frontier_closedBall _ (by norm_num)]
    refine ⟨fun _ => 3 / 2, ?_⟩
    rw [mem_sphere_zero_iff_norm, pi_norm_const]
    norm_num
  · obtain ⟨δ, hδ, hconv⟩ := C93_convergence hprop hb hT hε
    have hs : 0 < δ / 2 := by linarith
    obtain ⟨⟨ks, h1, h2⟩, -⟩ := C93_cover hprop (bisectionFinder 4) hsort ⟨0, 0, 0⟩ hs hb
    exact ⟨δ / 2, ks, hs, h1, hconv ⟨0, 0, 0⟩ (δ / 2) ks hs (by linarith) (fun k hk => Or.inl (h1 k hk).1) h2⟩

end Isomesh
