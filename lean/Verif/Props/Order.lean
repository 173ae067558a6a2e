import Verif.Proofs.Order
import Verif.Props.QefDemo

/-! Property C78: the order in which planes, states and cell edges are presented does not matter. -/

namespace Isomesh

open Spec

/-! ### Solvers -/

/-- C78.  The answer of a 3D solver depends only on the error function, the sum and number of the points and the options, no
matter by which histories of calls two solvers were brought to agree on these (and no matter which tiny thresholds are used,
if they are never met). -/
theorem C78_determined {tiny tiny' : ℝ} (ht : 0 < tiny) (ht' : 0 < tiny') (ops ops' : List (QefOp ℝ 3)) {q q' : Qef ℝ 3}
    (h : runOps qef3Rows 30 tiny Qef.new3 ops = some q) (h' : runOps qef3Rows 30 tiny' Qef.new3 ops' = some q')
    (hc : CleanRun qef3Rows 30 tiny Qef.new3 ops) (hc' : CleanRun qef3Rows 30 tiny' Qef.new3 ops')
    (cc : CompressClean tiny q) (cc' : CompressClean tiny' q')
    (he : ∀ p, q.eval qef3Rows p = q'.eval qef3Rows p) (hsum : q.pointsSum = q'.pointsSum)
    (hcnt : q.pointsCount = q'.pointsCount) (hopt : SameOptions q q') (lo hi : VecN ℝ 3) :
    answer qef3Rows tiny q lo hi = answer qef3Rows tiny' q' lo hi := by
  obtain ⟨i, -⟩ := run_spec ht (by simp [qef3Rows]) ops new3_inv hc h
  obtain ⟨i', -⟩ := run_spec ht' (by simp [qef3Rows]) ops' new3_inv hc' h'
  refine answer_determined (by simp [qef3Rows]) (by simp [qef3Rows]) ht ht' i i' cc cc' (fun p => ?_) hsum hcnt hopt lo hi
  have := he p
  rw [eval_eq q i.rows, eval_eq q' i'.rows] at this
  exact Option.some.inj this

section
variable {d : Nat}

/-- Thresholds for one history that ends with `solve`. -/
theorem clean_solve_exists (M bits : Nat) (ops : List (QefOp ℝ (d + 2))) (q0 : Qef ℝ (d + 2)) : ∃ δ : ℝ, 0 < δ ∧
    ∀ t, 0 < t → t ≤ δ → CleanRun M bits t q0 ops ∧ ∀ q, runOps M bits t q0 ops = some q → CompressClean t q := by
  obtain ⟨δ, h0, h⟩ := cleanRun_exists M bits (ops ++ [.solve 0 0]) q0
  refine ⟨δ, h0, fun t ht htd => ?_⟩
  obtain ⟨a, b⟩ := cleanRun_append.1 (h t ht htd)
  exact ⟨a, fun q hq => (b q hq).1⟩

theorem planes_order (M bits : Nat) (hM : 2 * (d + 2 + 1) ≤ M) {ps ps' : List (VecN ℝ (d + 2) × VecN ℝ (d + 2))} (hp : ps.Perm ps')
    (q0 : Qef ℝ (d + 2)) : ∃ δ : ℝ, 0 < δ ∧ ∀ tiny tiny', 0 < tiny → tiny ≤ δ → 0 < tiny' → tiny' ≤ δ →
    ∃ q q', runOps M bits tiny q0 (.reset :: ps.map fun a => .addPlane a.1 a.2) = some q ∧
      runOps M bits tiny' q0 (.reset :: ps'.map fun a => .addPlane a.1 a.2) = some q' ∧
      ∀ lo hi, answer M tiny q lo hi = answer M tiny' q' lo hi := by
  obtain ⟨δ, h0, h⟩ := clean_solve_exists M bits (.reset :: ps.map fun a => .addPlane a.1 a.2) q0
  obtain ⟨δ', h0', h'⟩ := clean_solve_exists M bits (.reset :: ps'.map fun a => .addPlane a.1 a.2) q0
  refine ⟨min δ δ', lt_min h0 h0', fun t t' ht htd ht' htd' => ?_⟩
  obtain ⟨a, b⟩ := h t ht (htd.trans (min_le_left _ _))
  obtain ⟨a', b'⟩ := h' t' ht' (htd'.trans (min_le_right _ _))
  obtain ⟨q1, h1, -⟩ := planes_run ht hM ps (reset_qinv q0) (by norm_num [Qef.reset]) (a.2 _ rfl)
  obtain ⟨q2, h2, -⟩ := planes_run ht' hM ps' (reset_qinv q0) (by norm_num [Qef.reset]) (a'.2 _ rfl)
  exact ⟨q1, q2, h1, h2, fun lo hi => planes_answer ht ht' hM hp ⟨rfl, rfl, rfl, rfl⟩ a a' h1 h2 (b _ h1) (b' _ h2) lo hi⟩

theorem merges_order (M bits : Nat) (hM : 2 * (d + 2 + 1) ≤ M) {ss ss' : List (QState ℝ (d + 2))} (hp : ss.Perm ss')
    (q0 : Qef ℝ (d + 2)) : ∃ δ : ℝ, 0 < δ ∧ ∀ tiny tiny', 0 < tiny → tiny ≤ δ → 0 < tiny' → tiny' ≤ δ →
    ∃ q q', runOps M bits tiny q0 (.reset :: ss.map .merge) = some q ∧
      runOps M bits tiny' q0 (.reset :: ss'.map .merge) = some q' ∧
      ∀ lo hi, answer M tiny q lo hi = answer M tiny' q' lo hi := by
  obtain ⟨δ, h0, h⟩ := clean_solve_exists M bits (.reset :: ss.map .merge) q0
  obtain ⟨δ', h0', h'⟩ := clean_solve_exists M bits (.reset :: ss'.map .merge) q0
  refine ⟨min δ δ', lt_min h0 h0', fun t t' ht htd ht' htd' => ?_⟩
  obtain ⟨a, b⟩ := h t ht (htd.trans (min_le_left _ _))
  obtain ⟨a', b'⟩ := h' t' ht' (htd'.trans (min_le_right _ _))
  obtain ⟨q1, h1, -⟩ := merges_run ht hM ss (reset_qinv q0) (a.2 _ rfl)
  obtain ⟨q2, h2, -⟩ := merges_run ht' hM ss' (reset_qinv q0) (a'.2 _ rfl)
  exact ⟨q1, q2, h1, h2, fun lo hi => merges_answer ht ht' hM hp ⟨rfl, rfl, rfl, rfl⟩ a a' h1 h2 (b _ h1) (b' _ h2) lo hi⟩

end

/-- C78.  The same planes (point and normal) added in any two orders after `reset`: both histories succeed and `solve` gives the
same point and the same feature dimension, in every box, for all thresholds that are small enough. -/
theorem C78_planes {ps ps' : List (VecN ℝ 3 × VecN ℝ 3)} (hp : ps.Perm ps') (q0 : Qef ℝ 3) :
    ∃ δ : ℝ, 0 < δ ∧ ∀ tiny tiny', 0 < tiny → tiny ≤ δ → 0 < tiny' → tiny' ≤ δ →
    ∃ q q', runOps qef3Rows 30 tiny q0 (.reset :: ps.map fun a => .addPlane a.1 a.2) = some q ∧
      runOps qef3Rows 30 tiny' q0 (.reset :: ps'.map fun a => .addPlane a.1 a.2) = some q' ∧
      ∀ lo hi, answer qef3Rows tiny q lo hi = answer qef3Rows tiny' q' lo hi :=
  planes_order qef3Rows 30 (by simp [qef3Rows]) hp q0

/-- C78 for the 4D solver. -/
theorem C78_planes4 {ps ps' : List (VecN ℝ 4 × VecN ℝ 4)} (hp : ps.Perm ps') (q0 : Qef ℝ 4) :
    ∃ δ : ℝ, 0 < δ ∧ ∀ tiny tiny', 0 < tiny → tiny ≤ δ → 0 < tiny' → tiny' ≤ δ →
    ∃ q q', runOps qef4Rows 29 tiny q0 (.reset :: ps.map fun a => .addPlane a.1 a.2) = some q ∧
      runOps qef4Rows 29 tiny' q0 (.reset :: ps'.map fun a => .addPlane a.1 a.2) = some q' ∧
      ∀ lo hi, answer qef4Rows tiny q lo hi = answer qef4Rows tiny' q' lo hi :=
  planes_order qef4Rows 29 (by simp [qef4Rows]) hp q0

/-- C78.  The same states merged in any two orders after `reset`: `solve` gives the same point and the same feature dimension. -/
theorem C78_merges {ss ss' : List (QState ℝ 3)} (hp : ss.Perm ss') (q0 : Qef ℝ 3) :
    ∃ δ : ℝ, 0 < δ ∧ ∀ tiny tiny', 0 < tiny → tiny ≤ δ → 0 < tiny' → tiny' ≤ δ →
    ∃ q q', runOps qef3Rows 30 tiny q0 (.reset :: ss.map .merge) = some q ∧
      runOps qef3Rows 30 tiny' q0 (.reset :: ss'.map .merge) = some q' ∧
      ∀ lo hi, answer qef3Rows tiny q lo hi = answer qef3Rows tiny' q' lo hi :=
  merges_order qef3Rows 30 (by simp [qef3Rows]) hp q0

/-! ### Meshes -/

/-- No compression meets a tiny column while the vertices of the grid's cells are computed, in whatever order the edges come. -/
def CleanCells (tiny eps : ℝ) (g : Grid ℝ) (options : Qef ℝ 3) : Prop :=
  ∀ P, CrossingCell g P → ∀ es : List (GridEdge ℝ), es.Nodup →
    (∀ e, e ∈ es ↔ e ∈ edgeList g ∧ EdgeOfCell P e.axis e.lesser) →
    CleanRun qef3Rows 30 tiny options (.reset :: es.map (planeOp eps)) ∧
    ∀ q, runOps qef3Rows 30 tiny options (.reset :: es.map (planeOp eps)) = some q → CompressClean tiny q

theorem toVecN_inj {a b : Vec3 ℝ} (h : a.toVecN = b.toVecN) : a = b := by
  have h0 := congrFun h 0
  have h1 := congrFun h 1
  have h2 := congrFun h 2
  exact Vec3.ext h0 h1 h2

theorem reset_same {options q : Qef ℝ 3} (h : SameOptions options q) : q.reset = options.reset := by
  obtain ⟨h1, h2, h3, h4⟩ := h
  unfold Qef.reset
  rw [h1, h2, h3, h4]

theorem delta_list {α : Type} (L : List α) (p : α → ℝ → Prop) (h : ∀ a ∈ L, ∃ δ : ℝ, 0 < δ ∧ ∀ t, 0 < t → t ≤ δ → p a t) :
    ∃ δ : ℝ, 0 < δ ∧ ∀ t, 0 < t → t ≤ δ → ∀ a ∈ L, p a t := by
  induction L with
  | nil => exact ⟨1, one_pos, fun _ _ _ _ ha => absurd ha (by simp)⟩
  | cons a L ih =>
    obtain ⟨δ, h0, h1⟩ := ih fun b hb => h b (List.mem_cons_of_mem _ hb)
    obtain ⟨δ', h0', h1'⟩ := h a List.mem_cons_self
    refine ⟨min δ δ', lt_min h0 h0', fun t ht htd b hb => ?_⟩
    rcases List.mem_cons.1 hb with rfl | hb
    · exact h1' t ht (htd.trans (min_le_right _ _))
    · exact h1 t ht (htd.trans (min_le_left _ _)) b hb

theorem cleanCells_exists {g : Grid ℝ} (hg : Filled g) (eps : ℝ) (options : Qef ℝ 3) :
    ∃ δ : ℝ, 0 < δ ∧ ∀ t, 0 < t → t ≤ δ → CleanCells t eps g options := by
  classical
  obtain ⟨cells, hcells⟩ : ∃ cells, CellList g cells := ⟨_, mcCells_cellList hg⟩
  obtain ⟨δ, h0, h⟩ := delta_list
    (cells.flatMap fun P => ((edgeList g).filter fun e => decide (EdgeOfCell P e.axis e.lesser)).permutations)
    (fun es t => CleanRun qef3Rows 30 t options (.reset :: es.map (planeOp eps)) ∧
      ∀ q, runOps qef3Rows 30 t options (.reset :: es.map (planeOp eps)) = some q → CompressClean t q)
    (fun es _ => clean_solve_exists qef3Rows 30 _ options)
  refine ⟨δ, h0, fun t ht htd P hP es hn hes => h t ht htd es ?_⟩
  rw [List.mem_flatMap]
  refine ⟨P, (hcells.mem P).2 hP, List.mem_permutations.2 ?_⟩
  refine (List.perm_ext_iff_of_nodup hn (((edgeList_nodup hg).imp fun h e => h (congrArg _ e)).filter _)).2 fun e => ?_
  rw [hes e, List.mem_filter, decide_eq_true_iff]

/-- C78.  A cell has only one acceptable vertex. -/
theorem C78_vertex_unique {env env' : DcEnv ℝ} {g : Grid ℝ} {options : Qef ℝ 3} {P : IVec3} {v v' : MeshVertex ℝ}
    (ht : 0 < env.tiny) (ht' : 0 < env'.tiny) (heps : env'.eps = env.eps) (hnrm : env'.normalize = env.normalize)
    (hc : CleanCells env.tiny env.eps g options) (hc' : CleanCells env'.tiny env.eps g options) (hP : CrossingCell g P)
    (h : DualVertex env g options P v) (h' : DualVertex env' g options P v') : v = v' := by
  obtain ⟨es, q0, q1, q2, x, hn, hes, ho, hrun, hs, hx, hnorm⟩ := h.solution
  obtain ⟨es', q0', q1', q2', x', hn', hes', ho', hrun', hs', hx', hnorm'⟩ := h'.solution
  have hp : es.Perm es' := (List.perm_ext_iff_of_nodup hn hn').2 fun e => (hes e).trans (hes' e).symm
  have hcl := hc P hP es hn hes
  have hcl' := hc' P hP es' hn' hes'
  rw [heps] at hrun'
  have toOpt : ∀ {t : ℝ} {q : Qef ℝ 3} (l : List (GridEdge ℝ)), SameOptions options q →
      runOps qef3Rows 30 t q (.reset :: l.map (planeOp env.eps)) = runOps qef3Rows 30 t options (.reset :: l.map (planeOp env.eps)) := by
    intro t q l hq
    simp only [runOps, List.foldlM_cons, QefOp.apply, reset_same hq]
  rw [toOpt es ho] at hrun
  rw [toOpt es' ho'] at hrun'
  have hmap : ∀ l : List (GridEdge ℝ), l.map (planeOp env.eps) =
      (l.map fun e => (e.surfacePoint.toVecN, (edgeNormal env.eps e.gradient).toVecN)).map fun a => .addPlane a.1 a.2 := by
    intro l; rw [List.map_map]; rfl
  have key := planes_answer (M := qef3Rows) (bits := 30) ht ht' (by simp [qef3Rows])
    (hp.map fun e => (e.surfacePoint.toVecN, (edgeNormal env.eps e.gradient).toVecN)) (sameOptions_refl options)
    (by rw [← hmap]; exact hcl.1) (by rw [← hmap]; exact hcl'.1) (by rw [← hmap]; exact hrun) (by rw [← hmap]; exact hrun')
    (hcl.2 _ hrun) (hcl'.2 _ hrun') (cellLo P) (cellHi P)
  rw [answer, answer, hs, hs'] at key
  simp only [Option.map_some, Option.some.injEq, Prod.mk.injEq] at key
  have e1 : v.position = v'.position := toVecN_inj (by rw [hx, hx', key.1])
  have e2 : v.normal = v'.normal := by
    rw [hnorm, hnorm', hnrm, heps]
    congr 1
    apply List.Perm.foldl_eq' (hp.map _)
    intro a _ b _ c
    simp only [Vec3.add, Vec3.mk.injEq]
    exact ⟨by ring, by ring, by ring⟩
  have e3 : v.material = v'.material := by
    obtain ⟨ms, hm, hv⟩ := h.voted
    obtain ⟨ms', hm', hv'⟩ := h'.voted
    rw [hm] at hm'
    cases hm'
    rw [hv, hv']
  cases v; cases v'
  simp only at e1 e2 e3
  rw [e1, e2, e3]

/-- C78.  The mesh of uniform dual contouring does not depend on how the unstable sort orders the edges of a cell, nor on
earlier use of the solver (only on its options), nor on the tiny threshold of the compression (if small enough). -/
theorem C78_uniform {g : Grid ℝ} (hg : Filled g) {solver solver' : Qef ℝ 3} (hpinv : 0 < solver.pinvTolerance)
    (hopt : SameOptions solver solver') (eps : ℝ) :
    ∃ δ : ℝ, 0 < δ ∧ ∀ env env' : DcEnv ℝ, IsSort env.srt → IsSort env'.srt → env.eps = eps → env'.eps = eps →
      env'.normalize = env.normalize → 0 < env.tiny → env.tiny ≤ δ → 0 < env'.tiny → env'.tiny ≤ δ →
      ∃ q q' r, dualContouring env g solver = some (q, r) ∧ dualContouring env' g solver' = some (q', r) := by
  obtain ⟨δ, h0, hδ⟩ := cleanCells_exists hg eps solver
  refine ⟨δ, h0, fun env env' hs hs' he he' hn ht htd ht' htd' => ?_⟩
  subst he
  have hcells := mcCells_cellList hg
  obtain ⟨q, vs, h1, h2, -⟩ := dc_result (env := env) hg hs hpinv hcells
  obtain ⟨q', vs', h1', h2', -⟩ := dc_result (env := env') hg hs' (solver := solver') (by rw [hopt.1]; exact hpinv) hcells
  refine ⟨q, q', _, h1, ?_⟩
  rw [h1']
  have : vs = vs' := by
    have hv : ∀ P v, DualVertex env' g solver' P v → DualVertex env' g solver P v := by
      intro P v h
      obtain ⟨es, q0, q1, q2, x, a, b, c, d⟩ := h.solution
      exact ⟨h.inside_x, h.inside_y, h.inside_z, h.solid, h.corner, h.majority, h.voted,
        es, q0, q1, q2, x, a, b, sameOptions_trans hopt c, d⟩
    have hlen : vs.length = vs'.length := by rw [← h2.length_eq, ← h2'.length_eq]
    refine List.ext_getElem hlen fun k hk hk' => ?_
    have hkc : k < (mcCells g).length := by rw [h2.length_eq]; exact hk
    have a := (List.forall₂_iff_get.1 h2).2 k hkc hk
    have b := (List.forall₂_iff_get.1 h2').2 k hkc hk'
    exact C78_vertex_unique ht ht' he' hn (hδ _ ht htd) (hδ _ ht' htd') ((hcells.mem _).1 (List.get_mem _ _)) a (hv _ _ b)
  rw [this]

/-- C78.  A DC octree without simplification and uniform dual contouring of the same grid put exactly the same vertex into every cell
that both of them mesh. -/
theorem C78_octree_agrees {g : Grid ℝ} (hg : Filled g) {solver : Qef ℝ 3} (hpinv : 0 < solver.pinvTolerance) (eps : ℝ) :
    ∃ δ : ℝ, 0 < δ ∧ ∀ env : DcEnv ℝ, IsSort env.srt → env.eps = eps → 0 < env.tiny → env.tiny ≤ δ →
      ∀ (o : DcOctree ℝ) (epsilon : ℝ), CubeIn g.maxCoord (rootCube o.level) →
      ∃ (q q' : Qef ℝ 3) (o' o'' : DcOctree ℝ) (r r' : PlacedMesh ℝ) (ucells : List IVec3) (cells : List Cube),
        dualContouring env g solver = some (q, r) ∧ CellList g ucells ∧ r.mesh.vertices.length = ucells.length ∧
        o.build env g solver epsilon false = some (q', o') ∧ o'.contour = some (r', o'') ∧
        r'.mesh.vertices.length = cells.length ∧
        (∀ c, c ∈ cells ↔ ∃ P, c = ⟨P, 0⟩ ∧ P ∈ ucells ∧ (rootCube o.level).Has P) ∧
        ∀ (i j : Nat) (P : IVec3), ucells[i]? = some P → cells[j]? = some ⟨P, 0⟩ →
          r'.mesh.vertices[j]? = r.mesh.vertices[i]? := by
  obtain ⟨δ, h0, hδ⟩ := cleanCells_exists hg eps solver
  refine ⟨δ, h0, fun env hs he ht htd o epsilon hin => ?_⟩
  subst he
  have hcells := mcCells_cellList hg
  obtain ⟨q, vs, h1, h2, -⟩ := dc_result (env := env) hg hs hpinv hcells
  obtain ⟨q', o', o'', r', cells, edges, b1, b2, -, b4, b5, -⟩ := C23_unsimplified (env := env) hg o epsilon hin hpinv
  refine ⟨q, q', o', o'', _, r', mcCells g, cells, h1, hcells, h2.length_eq.symm, b1, b2, b5.length_eq.symm, ?_, ?_⟩
  · intro c
    simp only [b4, hcells.mem]
  · intro i j P hi hj
    obtain ⟨hi', hP⟩ := List.getElem?_eq_some_iff.1 hi
    obtain ⟨hj', hQ⟩ := List.getElem?_eq_some_iff.1 hj
    have hi2 : i < vs.length := by rw [← h2.length_eq]; exact hi'
    have hj2 : j < r'.mesh.vertices.length := by rw [← b5.length_eq]; exact hj'
    have a := (List.forall₂_iff_get.1 h2).2 i hi' hi2
    have b := (List.forall₂_iff_get.1 b5).2 j hj' hj2
    simp only [List.get_eq_getElem, hP, hQ] at a b
    have := C78_vertex_unique ht ht rfl rfl (hδ _ ht htd) (hδ _ ht htd) ((hcells.mem P).1 (hP ▸ List.getElem_mem _)) b a
    rw [List.getElem?_eq_getElem hj2, List.getElem?_eq_getElem hi2, this]

/-! ### Non-vacuity -/

/-- Two different orders of three different planes. -/
theorem order_case : ∃ ps ps' : List (VecN ℝ 3 × VecN ℝ 3), ps.Perm ps' ∧ ps ≠ ps' ∧ ps.length = 3 := by
  refine ⟨[(![0, 0, 0], ![1, 0, 0]), (![1, 0, 0], ![0, 1, 0]), (![2, 0, 0], ![0, 0, 1])],
    [(![1, 0, 0], ![0, 1, 0]), (![0, 0, 0], ![1, 0, 0]), (![2, 0, 0], ![0, 0, 1])], List.Perm.swap _ _ _, ?_, rfl⟩
  intro h
  have h0 := congrArg (fun l => (l.map fun a => a.1 0).head?) h
  norm_num at h0

/-- Two different sorts that are correct: they order the edges of one cell differently. -/
theorem sorts_case : ∃ srt srt' : List (DcEntry ℝ) → List (DcEntry ℝ), IsSort srt ∧ IsSort srt' ∧ srt ≠ srt' := by
  classical
  let r : DcEntry ℝ → DcEntry ℝ → Prop := fun a b => a.cellIndex ≤ b.cellIndex
  haveI : Std.Total r := ⟨fun a b => le_total a.cellIndex b.cellIndex⟩
  haveI : IsTrans (DcEntry ℝ) r := ⟨fun a b c h h' => le_trans (α := Nat) h h'⟩
  refine ⟨fun l => l.insertionSort r, fun l => l.reverse.insertionSort r,
    fun l => ⟨List.perm_insertionSort _ _, List.pairwise_insertionSort r l⟩,
    fun l => ⟨(List.perm_insertionSort _ _).trans (List.reverse_perm _), List.pairwise_insertionSort r _⟩, ?_⟩
  intro h
  let e : ℝ → DcEntry ℝ := fun t => ⟨0, ⟨⟨0, 0, 0⟩, ⟨0, 0, 0⟩, t, .X, true, .Stone⟩⟩
  have h1 := congrFun h [e 0, e 1]
  have hr : ∀ a b : ℝ, r (e a) (e b) := fun _ _ => le_refl 0
  simp only [List.insertionSort, List.orderedInsert, List.reverse_cons, List.reverse_nil, List.nil_append, List.cons_append,
    List.foldr_cons, List.foldr_nil, hr, if_true] at h1
  have h2 : e 0 = e 1 := by injection h1
  have h3 : (0 : ℝ) = 1 := congrArg (fun x : DcEntry ℝ => x.edge.offset) h2
  norm_num at h3

end Isomesh
