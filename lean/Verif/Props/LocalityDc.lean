import Verif.Props.Locality
import Verif.Props.Order

/-! C83 for uniform dual contouring. -/

namespace Isomesh
open Spec

variable {g gf gf' : Grid ℝ} {f f' : ScalarField ℝ} {sv : ZeroFinder ℝ}

/-- A grid with the same corners and edge records in the cell allows the same vertices. -/
theorem dualVertex_transport {env : DcEnv ℝ} {a b : Grid ℝ} {options options' : Qef ℝ 3} {P : IVec3} {v : MeshVertex ℝ}
    (hopt : SameOptions options options') (hmat : ∀ c ∈ cellVertices P, b.at c = a.at c)
    (hed : ∀ e : GridEdge ℝ, EdgeOfCell P e.axis e.lesser → (e ∈ edgeList b ↔ e ∈ edgeList a))
    (h : DualVertex env a options' P v) : DualVertex env b options P v := by
  have hsol : ∀ c ∈ cellVertices P, solidAt b c = solidAt a c := fun c hc => by unfold solidAt; rw [hmat c hc]
  have cnt : ∀ {p q : IVec3 → Bool}, (∀ c ∈ cellVertices P, p c = q c) → (cellVertices P).countP p = (cellVertices P).countP q :=
    fun hpq => List.countP_congr fun c hc => by rw [hpq c hc]
  refine ⟨h.inside_x, h.inside_y, h.inside_z, h.solid, ?_, ?_, ?_, ?_⟩
  · obtain ⟨c, hc, e⟩ := h.corner
    exact ⟨c, hc, by rw [hmat c hc, e]⟩
  · intro m hm hlt
    apply h.majority m hm
    rw [cnt (p := fun c => solidAt b c) (q := fun c => solidAt a c) hsol,
      cnt (p := fun c => decide (b.at c = some m)) (q := fun c => decide (a.at c = some m)) fun c hc => by rw [hmat c hc]] at hlt
    exact hlt
  · obtain ⟨ms, h1, h2⟩ := h.voted
    have : (cellVertices P).mapM b.at = (cellVertices P).mapM a.at := by
      have : ∀ l : List IVec3, (∀ c ∈ l, b.at c = a.at c) → l.mapM b.at = l.mapM a.at := by
        intro l
        induction l with
        | nil => intro _; rfl
        | cons c l ih =>
          intro hl
          rw [List.mapM_cons, List.mapM_cons, hl c List.mem_cons_self, ih fun c hc => hl c (List.mem_cons_of_mem _ hc)]
      exact this _ hmat
    exact ⟨ms, by rw [this, h1], h2⟩
  · obtain ⟨es, q0, q1, q2, x, hn, hes, hso, hrest⟩ := h.solution
    refine ⟨es, q0, q1, q2, x, hn, fun e => ?_, sameOptions_trans hopt hso, hrest⟩
    rw [hes e]
    constructor
    · rintro ⟨h1, h2⟩; exact ⟨(hed e h2).2 h1, h2⟩
    · rintro ⟨h1, h2⟩; exact ⟨(hed e h2).1 h1, h2⟩

/-- All four cells around the edge are clean. -/
def CleanAround (f f' : ScalarField ℝ) (origin : Vec3 ℝ) (step : ℝ) (e : GridEdge ℝ) : Prop :=
  ∀ c ∈ cellsAroundEdge e.axis e.lesser, CleanCell f f' origin step c

/-- A triangle by its vertices. -/
def shownTri (r : PlacedMesh ℝ) (t : Nat × Nat × Nat) : Option (MeshVertex ℝ) × Option (MeshVertex ℝ) × Option (MeshVertex ℝ) :=
  (r.mesh.vertices[t.1]?, r.mesh.vertices[t.2.1]?, r.mesh.vertices[t.2.2]?)

/-- C83 (uniform dual contouring).  The same with dual contouring: two proper fields that differ only inside the region `U` give meshes with a common
part `A` (all positions, normals and materials), and every other triangle of either mesh belongs to a grid edge around which some cell contains
a point of `U`, and has its vertices in the cells around that edge.  (The order in which the unstable sort presents the edges of a cell does
not matter; as in C78, the threshold for small columns in the Householder step has to be small enough for these two grids.) -/
theorem C83_dual_contouring (hg : g.Reachable) (hstep : 0 < g.step) (hf : ProperField f) (hf' : ProperField f')
    (hloc : LocalFinder sv g.globalPos g.step) (hsv : StaysOnEdges f sv g.globalPos g.step)
    {U : Set (Vec3 ℝ)} (hU : ∀ q, q ∉ U → AgreeAt f f' q)
    (h : g.fill f sv = some gf) (h' : g.fill f' sv = some gf')
    {solver solver' : Qef ℝ 3} (hpinv : 0 < solver.pinvTolerance) (hopt : SameOptions solver solver') (eps : ℝ) :
    ∃ δ : ℝ, 0 < δ ∧ ∀ env : DcEnv ℝ, IsSort env.srt → env.eps = eps → 0 < env.tiny → env.tiny ≤ δ →
    ∃ q q' r r', dualContouring env gf solver = some (q, r) ∧ dualContouring env gf' solver' = some (q', r') ∧
      r'.globalPos = r.globalPos ∧ r'.globalScale = r.globalScale ∧
      ∃ A B B', (shownTriangles r).Perm (A ++ B) ∧ (shownTriangles r').Perm (A ++ B') ∧
        (∀ t ∈ B, ∃ D p, (∀ c ∈ cellsAroundEdge D p, CellIn g.maxCoord c) ∧
          (∃ c ∈ cellsAroundEdge D p, ∃ q ∈ U, InWorldCell g.globalPos g.step c q) ∧ TriangleInCells r (cellsAroundEdge D p) t) ∧
        (∀ t ∈ B', ∃ D p, (∀ c ∈ cellsAroundEdge D p, CellIn g.maxCoord c) ∧
          (∃ c ∈ cellsAroundEdge D p, ∃ q ∈ U, InWorldCell g.globalPos g.step c q) ∧ TriangleInCells r' (cellsAroundEdge D p) t) := by
  classical
  obtain ⟨m1, m2, p1, p2, s1, s2, -⟩ := clean_max hg hf hf' h h'
  have hF := C07_filled hg hf h
  have hF' := C07_filled hg hf' h'
  obtain ⟨δ, h0, hδ⟩ := cleanCells_exists hF eps solver
  refine ⟨δ, h0, fun env hs he ht htd => ?_⟩
  subst he
  obtain ⟨⟨cells, hcells⟩, q, r, hr, r1, r2, -, hv⟩ := C18_vertices (env := env) hF hs hpinv
  obtain ⟨⟨cells', hcells'⟩, q', r', hr', r1', r2', -, hv'⟩ := C18_vertices (env := env) hF' hs (solver := solver') (by rw [hopt.1]; exact hpinv)
  obtain ⟨-, htri, hin, -⟩ := C19_quads hF hs hpinv hr hcells
  obtain ⟨-, htri', hin', -⟩ := C19_quads hF' hs (by rw [hopt.1]; exact hpinv) hr' hcells'
  obtain ⟨-, hv⟩ := hv cells hcells
  obtain ⟨-, hv'⟩ := hv' cells' hcells'
  refine ⟨q, q', r, r', hr, hr', by rw [r1, r1', p1, p2], by rw [r2, r2', s1, s2], ?_⟩
  obtain ⟨gm, ge⟩ := C83_grid hg hstep hloc hsv h h'
  have hcm : ∀ {P}, CellIn g.maxCoord P → CleanCell f f' g.globalPos g.step P → ∀ c ∈ cellVertices P, gf'.at c = gf.at c :=
    fun hP hc c hcv => gm c (hP c hcv) (hc _ (corner_inCell g.globalPos hstep hcv))
  have hce : ∀ {P}, CleanCell f f' g.globalPos g.step P → ∀ e : GridEdge ℝ, EdgeOfCell P e.axis e.lesser →
      (e ∈ edgeList gf' ↔ e ∈ edgeList gf) := fun hc e heP => by
    rw [mem_edgeList hF, mem_edgeList hF']
    exact ge e.axis e.lesser (fun q hq => hc q (onEdge_inCell hstep heP hq)) e rfl
  -- the vertices of clean cells agree
  have hvert : ∀ c, CellIn g.maxCoord c → c ∈ cells → c ∈ cells' → CleanCell f f' g.globalPos g.step c →
      r'.mesh.vertices[cells'.idxOf c]? = r.mesh.vertices[cells.idxOf c]? := by
    intro c hcin hc hc' hcl
    have hlt := List.idxOf_lt_length_of_mem hc
    have hlt' := List.idxOf_lt_length_of_mem hc'
    obtain ⟨v, e1, d1⟩ := hv (cells.idxOf c) c (by rw [List.getElem?_eq_getElem hlt, List.getElem_idxOf])
    obtain ⟨v', e2, d2⟩ := hv' (cells'.idxOf c) c (by rw [List.getElem?_eq_getElem hlt', List.getElem_idxOf])
    have d3 : DualVertex env gf solver c v' := dualVertex_transport hopt (fun x hx => (hcm hcin hcl x hx).symm) (fun e he => (hce hcl e he).symm) d2
    rw [e1, e2, C78_vertex_unique ht ht rfl rfl (hδ _ ht htd) (hδ _ ht htd) ((hcells.mem _).1 hc) d1 d3]
  have hbox : ∀ {r : PlacedMesh ℝ} {gg : Grid ℝ} {options : Qef ℝ 3} {c : IVec3} {v : MeshVertex ℝ}, r.globalPos = g.globalPos → r.globalScale = g.step →
      DualVertex env gg options c v → InWorldCell r.globalPos r.globalScale c (meshToWorld r v.position) := by
    intro r gg options c v e1 e2 d A
    rw [e1, e2, meshToWorld_get, worldPos_get, e1, e2]
    have hcell : ((c.get A : Int) : ℝ) ≤ v.position.get A ∧ v.position.get A ≤ (c.get A : Int) + 1 := by
      cases A
      exacts [d.inside_x, d.inside_y, d.inside_z]
    constructor <;> nlinarith [hcell.1, hcell.2]
  have hshown : ∀ (r : PlacedMesh ℝ) (gg : Grid ℝ) (cells : List IVec3), triangles r.mesh.indices = (edgeList gg).flatMap (edgeQuad gg.maxCoord cells) →
      shownTriangles r = (edgeList gg).flatMap fun e => (edgeQuad gg.maxCoord cells e).map (shownTri r) := by
    intro r gg cells e
    unfold shownTriangles
    rw [e, List.map_flatMap]
    rfl
  have split : ∀ (l : List (GridEdge ℝ)) (c : GridEdge ℝ → Prop)
      (F : GridEdge ℝ → List (Option (MeshVertex ℝ) × Option (MeshVertex ℝ) × Option (MeshVertex ℝ))),
      (l.flatMap F).Perm ((l.filter fun P => decide (c P)).flatMap F ++ (l.filter fun P => !decide (c P)).flatMap F) := by
    intro l c F
    rw [← List.flatMap_append]
    exact ((List.filter_append_perm _ l).symm).flatMap_right F
  have nd : ∀ {gg : Grid ℝ}, Filled gg → (edgeList gg).Nodup := fun hgg =>
    (edgeList_nodup hgg).imp fun hne e => hne (by rw [e])
  have dirty : ∀ {gg : Grid ℝ} {r : PlacedMesh ℝ} {cells : List IVec3} {options : Qef ℝ 3}, gg.maxCoord = g.maxCoord →
      r.globalPos = g.globalPos → r.globalScale = g.step →
      (∀ e ∈ edgeList gg, InteriorEdge gg.maxCoord e.axis e.lesser → ∀ c ∈ cellsAroundEdge e.axis e.lesser, c ∈ cells) →
      (∀ (k : Nat) (P : IVec3), cells[k]? = some P → ∃ v, r.mesh.vertices[k]? = some v ∧ DualVertex env gg options P v) →
      ∀ t ∈ ((edgeList gg).filter fun e => !decide (CleanAround f f' g.globalPos g.step e)).flatMap
        (fun e => (edgeQuad gg.maxCoord cells e).map (shownTri r)),
      ∃ D p, (∀ c ∈ cellsAroundEdge D p, CellIn g.maxCoord c) ∧
        (∃ c ∈ cellsAroundEdge D p, ∃ q ∈ U, InWorldCell g.globalPos g.step c q) ∧ TriangleInCells r (cellsAroundEdge D p) t := by
    intro gg r cells options hm e1 e2 hin hv t htm
    obtain ⟨e, hem, htm⟩ := List.mem_flatMap.1 htm
    obtain ⟨t, hte, rfl⟩ := List.mem_map.1 htm
    rw [List.mem_filter] at hem
    obtain ⟨hem, hdirty⟩ := hem
    have hdirty : ¬ CleanAround f f' g.globalPos g.step e := by simpa using hdirty
    unfold edgeQuad at hte
    split_ifs at hte with hall
    swap
    · simp at hte
    have hint : InteriorEdge gg.maxCoord e.axis e.lesser := by
      intro c hc
      exact of_decide_eq_true ((List.all_eq_true.1 hall) c hc)
    refine ⟨e.axis, e.lesser, by rw [← hm]; exact hint, ?_, ?_⟩
    · unfold CleanAround CleanCell at hdirty
      push Not at hdirty
      obtain ⟨c, hc, q, hq, hn⟩ := hdirty
      exact ⟨c, hc, q, by by_contra hU'; exact hn (hU q hU'), hq⟩
    · have vert : ∀ c ∈ cellsAroundEdge e.axis e.lesser, ∃ v, r.mesh.vertices[cells.idxOf c]? = some v ∧
          ∃ P ∈ cellsAroundEdge e.axis e.lesser, InWorldCell r.globalPos r.globalScale P (meshToWorld r v.position) := by
        intro c hc
        have hlt := List.idxOf_lt_length_of_mem (hin e hem hint c hc)
        obtain ⟨v, e3, d⟩ := hv (cells.idxOf c) c (by rw [List.getElem?_eq_getElem hlt, List.getElem_idxOf])
        exact ⟨v, e3, c, hc, hbox e1 e2 d⟩
      obtain ⟨c0, c1, c2, c3, hcs, -⟩ := (C04_around_edge_geometry e.axis e.lesser).2.2
      rw [hcs] at hte vert ⊢
      obtain ⟨a0, k0, l0⟩ := vert c0 (by simp)
      obtain ⟨a1, k1, l1⟩ := vert c1 (by simp)
      obtain ⟨a2, k2, l2⟩ := vert c2 (by simp)
      obtain ⟨a3, k3, l3⟩ := vert c3 (by simp)
      simp only [List.map_cons, List.map_nil, quadTriangles] at hte
      split_ifs at hte <;> simp only [List.mem_cons, List.not_mem_nil, or_false] at hte <;> rcases hte with rfl | rfl
      · exact ⟨a0, a1, a3, by simp only [shownTri, k0, k1, k3], l0, l1, l3⟩
      · exact ⟨a1, a2, a3, by simp only [shownTri, k1, k2, k3], l1, l2, l3⟩
      · exact ⟨a0, a3, a1, by simp only [shownTri, k0, k1, k3], l0, l3, l1⟩
      · exact ⟨a1, a3, a2, by simp only [shownTri, k1, k2, k3], l1, l3, l2⟩
  refine ⟨_, _, _, by rw [hshown r gf cells htri]; exact split _ (CleanAround f f' g.globalPos g.step) _, ?_,
    dirty m1 (by rw [r1, p1]) (by rw [r2, s1]) hin hv, dirty m2 (by rw [r1', p2]) (by rw [r2', s2]) hin' hv'⟩
  rw [hshown r' gf' cells' htri']
  refine (split _ (CleanAround f f' g.globalPos g.step) _).trans ?_
  refine List.Perm.append_right _ ?_
  have hperm : ((edgeList gf').filter fun e => decide (CleanAround f f' g.globalPos g.step e)).Perm
      ((edgeList gf).filter fun e => decide (CleanAround f f' g.globalPos g.step e)) := by
    refine (List.perm_ext_iff_of_nodup ((nd hF').filter _) ((nd hF).filter _)).2 fun e => ?_
    rw [List.mem_filter, List.mem_filter]
    refine and_congr_left fun hcl => ?_
    have hcl : CleanAround f f' g.globalPos g.step e := by simpa using hcl
    obtain ⟨c0, c1, c2, c3, hcs, -⟩ := (C04_around_edge_geometry e.axis e.lesser).2.2
    have hc0 : c0 ∈ cellsAroundEdge e.axis e.lesser := by rw [hcs]; simp
    exact hce (hcl c0 hc0) e (edge_of_around hc0)
  refine (hperm.flatMap_right _).trans (List.Perm.of_eq ?_)
  apply flatMap_agree
  intro e hem
  rw [List.mem_filter] at hem
  have hcl : CleanAround f f' g.globalPos g.step e := by simpa using hem.2
  obtain ⟨c0, c1, c2, c3, hcs, -⟩ := (C04_around_edge_geometry e.axis e.lesser).2.2
  have hc0 : c0 ∈ cellsAroundEdge e.axis e.lesser := by rw [hcs]; simp
  have hem' : e ∈ edgeList gf' := (hce (hcl c0 hc0) e (edge_of_around hc0)).2 hem.1
  unfold edgeQuad
  rw [m1, m2]
  split_ifs with hall
  swap
  · rfl
  have hint : InteriorEdge g.maxCoord e.axis e.lesser := by
    intro c hc
    exact of_decide_eq_true ((List.all_eq_true.1 hall) c hc)
  have key : ∀ c ∈ cellsAroundEdge e.axis e.lesser, r'.mesh.vertices[cells'.idxOf c]? = r.mesh.vertices[cells.idxOf c]? := fun c hc =>
    hvert c (hint c hc) (hin e hem.1 (by rw [m1]; exact hint) c hc) (hin' e hem' (by rw [m2]; exact hint) c hc) (hcl c hc)
  rw [hcs] at key ⊢
  have k0 := key c0 (by simp)
  have k1 := key c1 (by simp)
  have k2 := key c2 (by simp)
  have k3 := key c3 (by simp)
  simp only [List.map_cons, List.map_nil, quadTriangles]
  split_ifs <;> simp only [List.map_cons, List.map_nil, shownTri, k0, k1, k2, k3]

/-- Non-vacuity: the edit of C83 (a hole dug into flat ground) with the default solver. -/
example : ∃ (g gf gf' : Grid ℝ) (δ : ℝ), g.Reachable ∧ g.fill groundField (bisectionFinder 4) = some gf ∧ g.fill dugField (bisectionFinder 4) = some gf' ∧
    0 < δ ∧ solidAt gf ⟨0, 0, 0⟩ = true ∧ solidAt gf' ⟨0, 0, 0⟩ = false ∧
    ∀ env : DcEnv ℝ, IsSort env.srt → env.eps = 1 / 1000 → 0 < env.tiny → env.tiny ≤ δ →
      ∃ q q' r r' A B B', dualContouring env gf Qef.new3 = some (q, r) ∧ dualContouring env gf' Qef.new3 = some (q', r') ∧
        (shownTriangles r).Perm (A ++ B) ∧ (shownTriangles r').Perm (A ++ B') ∧
        ∀ t ∈ B', ∃ D p, ∃ c ∈ cellsAroundEdge D p, ∃ q ∈ holeRegion, InWorldCell g.globalPos g.step c q := by
  obtain ⟨g, e, hgp⟩ : ∃ g, Grid.mk' 4 (⟨0, 0, 0⟩ : Vec3 ℝ) 1 = .ok g ∧ g.globalPos = ⟨0, 0, 0⟩ ∧ g.step = 1 ∧ g.maxCoord = 2 := ⟨_, rfl, rfl, rfl, rfl⟩
  have hre : g.Reachable := .mk e
  have hp1 : ProperField groundField := by intro q _; simp [groundField]
  have hp2 : ProperField dugField := by intro q _; simp [dugField]
  obtain ⟨gf, hfill, ⟨-, hm1, -⟩, -⟩ := C06_fill_materials hre groundField (bisectionFinder 4)
  obtain ⟨gf', hfill', ⟨-, hm2, -⟩, -⟩ := C06_fill_materials hre dugField (bisectionFinder 4)
  have hstep : 0 < g.step := by rw [hgp.2.1]; norm_num
  have n1 : gf.maxCoord = 2 := Eq.trans hm1 hgp.2.2
  have n2 : gf'.maxCoord = 2 := Eq.trans hm2 hgp.2.2
  obtain ⟨δ, h0, hδ⟩ := C83_dual_contouring hre hstep hp1 hp2 (C83_finders 0 4 g.globalPos hstep).1 (C69_solvers _ 0 4 g.globalPos hstep).1
    (U := holeRegion) (fun q hq => ⟨by simp [dugField, groundField, hq], rfl, fun _ => rfl⟩) hfill hfill' (solver := Qef.new3) (solver' := Qef.new3)
    (by norm_num [Qef.new3]) (sameOptions_refl _) (1 / 1000)
  refine ⟨g, gf, gf', δ, hre, hfill, hfill', h0, ?_, ?_, fun env a1 a2 a3 a4 => ?_⟩
  · rw [solidAt_fill hre hp1 hfill (by rw [n1]; decide), hgp.1, hgp.2.1]
    simp [worldPos, groundField]
  · rw [solidAt_fill hre hp2 hfill' (by rw [n2]; decide), hgp.1, hgp.2.1]
    simp [worldPos, dugField, holeRegion]
  · obtain ⟨q, q', r, r', b1, b2, -, -, A, B, B', b3, b4, -, b5⟩ := hδ env a1 a2 a3 a4
    refine ⟨q, q', r, r', A, B, B', b1, b2, b3, b4, fun t ht => ?_⟩
    obtain ⟨D, p, -, h1, -⟩ := b5 t ht
    exact ⟨D, p, h1⟩

end Isomesh
