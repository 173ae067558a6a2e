import Verif.Spec.DcError
import Verif.Props.FlatOct
import Verif.Props.NearDemo
import Verif.Props.PlaneCollapse
import Verif.Props.FlatDemo
import Verif.Props.Order

/-! C102: the error bound of simplified octrees is a bound on the distances to the tangent planes. -/

namespace Isomesh
open Spec

section
variable {env : DcEnv ℝ} {g : Grid ℝ} {options : Qef ℝ 3}

theorem calls_err {tiny : ℝ} (ht : 0 < tiny) {ops : List (QefOp ℝ 3)} {q1 : Qef ℝ 3}
    (hc : CleanRun qef3Rows 30 tiny options (.reset :: ops ++ [.state])) (hr : runOps qef3Rows 30 tiny options (.reset :: ops) = some q1) :
    QInv qef3Rows q1 ∧ (∀ p, qerr q1 p = ops.foldl (fun e op => op.addTo p e) 0) ∧
      ∀ q2 s, q1.state qef3Rows 30 tiny = some (q2, s) → ∀ p, stateErr s p = qerr q1 p := by
  rw [cleanRun_append] at hc
  obtain ⟨hc1, hc2⟩ := hc
  have hst := (hc2 q1 hr).1
  have hc3 := hc1.2 options.reset rfl
  rw [runOps, List.foldlM_cons] at hr
  simp only [QefOp.apply, Option.bind_eq_bind, Option.bind_some] at hr
  have hq : QInv qef3Rows options.reset := ⟨Nat.zero_le _, fun _ _ _ _ => rfl⟩
  obtain ⟨i, e⟩ := run_spec (d := 1) ht (by decide) ops hq hc3 hr
  refine ⟨i, fun p => ?_, fun q2 s hs p => ?_⟩
  · rw [e p]
    congr 1
  · have hcnt : q1.pointsCount < 2 ^ 30 := by
      by_contra hcnt
      obtain ⟨A, hA⟩ := compress_some (tiny := tiny) (by simp [qef3Rows] : 3 + 1 ≤ qef3Rows) i.rows
      simp only [Qef.state, hA, Option.bind_eq_bind, Option.bind_some] at hs
      rw [if_neg hcnt] at hs
      simp at hs
    obtain ⟨q', s', h1, -, -, h4, -⟩ := state_spec ht (by simp [qef3Rows]) i hst hcnt
    rw [hs] at h1; cases h1
    exact h4 p

theorem planes_foldl (eps : ℝ) (es : List (GridEdge ℝ)) (p : VecN ℝ 3) (e : ℝ) :
    (es.map (planeOp eps)).foldl (fun e op => QefOp.addTo p e op) e = e + planesErr (edgePlanes eps es) p := by
  induction es generalizing e with
  | nil => simp [planesErr, edgePlanes]
  | cons a es ih =>
    rw [List.map_cons, List.foldl_cons, ih]
    simp only [planesErr, edgePlanes, List.map_cons, List.sum_cons, planeOp, QefOp.addTo]
    ring

theorem merges_foldl (ss : List (QState ℝ 3)) (p : VecN ℝ 3) (e : ℝ) :
    (ss.map QefOp.merge).foldl (fun e op => QefOp.addTo p e op) e = e + (ss.map fun s => stateErr s p).sum := by
  induction ss generalizing e with
  | nil => simp
  | cons a ss ih =>
    rw [List.map_cons, List.foldl_cons, ih]
    simp only [List.map_cons, List.sum_cons, QefOp.addTo]
    ring

theorem cellEdgeList_perm (hF : Filled g) {P : IVec3} {es : List (GridEdge ℝ)} (h : StoredEdges g P es) : (cellEdgeList g P).Perm es := by
  have hnd : (edgeList g).Nodup := hF.stored.edgeList_nodup.imp fun h e => h (by rw [e])
  unfold cellEdgeList
  refine (List.perm_ext_iff_of_nodup (hnd.filter _) h.1).2 fun e => ?_
  simp only [h.2, List.mem_filter, decide_eq_true_eq]

theorem cell_calls_err (ht : 0 < env.tiny) (hF : Filled g) (hcl : CleanBuild env.eps env.tiny g options) {P : IVec3} {es : List (GridEdge ℝ)}
    (hin : CellIn g.maxCoord P) (hes : StoredEdges g P es) {q1 : Qef ℝ 3}
    (hr : runOps qef3Rows 30 env.tiny options (cellCalls env.eps P es) = some q1) :
    QInv qef3Rows q1 ∧ (∀ p, qerr q1 p = cubeErr env.eps g 0 P p) ∧
      ∀ q2 s, q1.state qef3Rows 30 env.tiny = some (q2, s) → ∀ p, stateErr s p = cubeErr env.eps g 0 P p := by
  obtain ⟨i, e, s⟩ := calls_err ht (ops := es.map (planeOp env.eps) ++ [.solve (cellLo P) (cellHi P)]) (hcl.cell P es hin hes) hr
  have key : ∀ p, qerr q1 p = cubeErr env.eps g 0 P p := by
    intro p
    rw [e p, List.foldl_append, planes_foldl]
    simp only [List.foldl_cons, List.foldl_nil, QefOp.addTo, zero_add, cubeErr]
    exact (planesErr_perm ((cellEdgeList_perm hF hes).symm.map _) p)
  exact ⟨i, key, fun q2 t h p => (s q2 t h p).trans (key p)⟩

theorem cube_calls_err (ht : 0 < env.tiny) (hcl : CleanBuild env.eps env.tiny g options) {k : Nat} {lo : IVec3} {σ : Fin 8 → Option (QState ℝ 3)}
    (hin : CubeIn g.maxCoord ⟨lo, k + 1⟩) (hσ : ∀ i t, σ i = some t → CubeState env.eps env.tiny g options k (octCorner lo (2 ^ k) i) t ∧
      ∀ p, stateErr t p = cubeErr env.eps g k (octCorner lo (2 ^ k) i) p)
    (hz : ∀ i, σ i = none → ∀ p, cubeErr env.eps g k (octCorner lo (2 ^ k) i) p = 0) {q1 : Qef ℝ 3}
    (hr : runOps qef3Rows 30 env.tiny options (cubeCalls k lo σ) = some q1) :
    QInv qef3Rows q1 ∧ (∀ p, qerr q1 p = cubeErr env.eps g (k + 1) lo p) ∧
      ∀ q2 s, q1.state qef3Rows 30 env.tiny = some (q2, s) → ∀ p, stateErr s p = cubeErr env.eps g (k + 1) lo p := by
  obtain ⟨i, e, s⟩ := calls_err ht (ops := ((List.finRange 8).filterMap σ).map .merge ++ [.solve ![(lo.x : ℝ), lo.y, lo.z] _])
    (hcl.node k lo σ hin fun i t h => (hσ i t h).1) hr
  have key : ∀ p, qerr q1 p = cubeErr env.eps g (k + 1) lo p := by
    intro p
    rw [e p, List.foldl_append, merges_foldl]
    simp only [List.foldl_cons, List.foldl_nil, QefOp.addTo, zero_add, cubeErr]
    have hsum : ∀ is : List (Fin 8), ((is.filterMap σ).map fun s => stateErr s p).sum =
        (is.map fun i => cubeErr env.eps g k (octCorner lo (2 ^ k) i) p).sum := by
      intro is
      induction is with
      | nil => rfl
      | cons i is ih =>
        rw [List.filterMap_cons]
        cases h : σ i with
        | none => simp only [List.map_cons, List.sum_cons, hz i h p, zero_add]; exact ih
        | some t => simp only [List.map_cons, List.sum_cons, (hσ i t h).2 p, ih]
    rw [hsum, Fin.sum_univ_def]
  exact ⟨i, key, fun q2 t h p => (s q2 t h p).trans (key p)⟩

/-- A uniform cube has no crossings. -/
theorem uniform_err (hF : Filled g) (eps : ℝ) : ∀ (k : Nat) (lo : IVec3), (∀ p, (⟨lo, k⟩ : Cube).Closed p → solidAt g p = solidAt g lo) →
    ∀ p, cubeErr eps g k lo p = 0 := by
  intro k
  induction k with
  | zero =>
    intro lo h p
    have : cellEdgeList g lo = [] := by
      rw [List.eq_nil_iff_forall_not_mem]
      intro e he
      unfold cellEdgeList at he
      obtain ⟨h1, h2⟩ := List.mem_filter.1 he
      simp only [decide_eq_true_eq] at h2
      have hcr := hF.crossing ((mem_edgeList hF).1 h1)
      have hv : ∀ q ∈ edgeVertices e.axis e.lesser, solidAt g q = solidAt g lo := by
        intro q hq
        apply h
        have := h2 q hq
        simp only [cellVertices, List.mem_cons, List.not_mem_nil, or_false] at this
        rcases this with r | r | r | r | r | r | r | r <;> subst r <;> simp [Cube.Closed, shift, Cube.side]
      apply hcr.2
      rw [hv e.lesser (by cases e.axis <;> simp [edgeVertices]),
        hv (edgeEnd e.axis e.lesser) (by cases e.axis <;> simp [edgeVertices, edgeEnd])]
    simp [cubeErr, this, edgePlanes, planesErr]
  | succ k ih =>
    intro lo h p
    rw [cubeErr]
    have hsub : ∀ i p, (⟨octCorner lo (2 ^ k) i, k⟩ : Cube).Closed p → (⟨lo, k + 1⟩ : Cube).Closed p :=
      fun i p hp => closed_sub (octant_sub i) hp
    refine Finset.sum_eq_zero fun i _ => ih _ (fun p hp => ?_) p
    rw [h p (hsub i p hp), h _ (hsub i _ (lo_closed ⟨_, k⟩))]

/-- What a leaf stores. -/
def ErrLeaf (env : DcEnv ℝ) (g : Grid ℝ) (options : Qef ℝ 3) (epsilon : ℝ) (x : Cube × DcLeaf ℝ) : Prop :=
  x.2.homogeneous = false → ∃ D, x.2.dual = some D ∧ CubeState env.eps env.tiny g options x.1.k x.1.lo D.qef ∧
    (∀ p, stateErr D.qef p = cubeErr env.eps g x.1.k x.1.lo p) ∧ (x.1.k = 0 ∨ cubeErr env.eps g x.1.k x.1.lo D.vertex.toVecN ≤ epsilon)

theorem err_leaf (ht : 0 < env.tiny) (hF : Filled g) (hcl : CleanBuild env.eps env.tiny g options) {epsilon : ℝ} {lo : IVec3}
    (hin : CellIn g.maxCoord lo) {depth : Nat} {q q' : Qef ℝ 3} (ho : SameOptions options q)
    {t : DcNode ℝ} (hb : dcBuildLeaf env g depth lo q = some (q', t)) : ∀ x ∈ (locate t ⟨lo, 0⟩).leaves, ErrLeaf env g options epsilon x := by
  obtain ⟨corners, es, q1, ms, h1, h2, h3, h4, h5, h6, h7, h8, h9, h11, h12, h10⟩ := dcBuildLeaf_eq (env := env) hF hin depth q
  rw [h10] at hb
  split at hb
  · simp only [Option.bind_eq_bind, Option.bind_eq_some_iff] at hb
    obtain ⟨qv, hv, qs, hqs, hb⟩ := hb
    cases hb
    intro x hx hf'
    simp only [locate, Oct.leaves, List.mem_singleton] at hx
    subst hx
    have hes : StoredEdges g lo es := ⟨h2, h4⟩
    unfold dcSolveBox at hv
    have e1 : lo.toReal.toVecN = cellLo lo := (upper_eq (K := ℝ) lo 0).1
    have e2 : ((upperCorner lo 0).toReal.toVecN : VecN ℝ 3) = cellHi lo := by rw [(upper_eq (K := ℝ) lo 0).2]; simp [cellHi]
    rw [e1, e2] at hv
    have hr : runOps qef3Rows 30 env.tiny options (cellCalls env.eps lo es) = some qv.1 := by
      rw [cellCalls, List.cons_append, runOps, List.foldlM_cons]
      rw [runOps, List.foldlM_cons] at h6
      simp only [QefOp.apply, Option.bind_eq_bind, Option.bind_some] at h6 ⊢
      rw [List.foldlM_append, ← reset_eq ho, h6]
      simp [QefOp.apply, hv]
    obtain ⟨-, -, k3⟩ := cell_calls_err ht hF hcl hin hes hr
    exact ⟨_, rfl, .cell hes hr (q2 := qs.1) (by rw [hqs]), k3 qs.1 qs.2 (by rw [hqs]), Or.inl rfl⟩
  · rename_i hne
    cases hb
    intro x hx hf'
    simp only [locate, Oct.leaves, List.mem_singleton] at hx
    subst hx
    have := (homogeneous_iff (g := g) (c := ⟨lo, 0⟩) (l := ⟨depth, corners, none, none⟩) h1).2 (fun hh => hne (h5.2 hh))
    rw [this] at hf'
    cases hf'

theorem err_node (ht : 0 < env.tiny) (hF : Filled g) (hcl : CleanBuild env.eps env.tiny g options) {epsilon : ℝ} {simplify : Bool} :
    ∀ (k depth : Nat) (lo : IVec3) (q q' : Qef ℝ 3) (t : DcNode ℝ), CubeIn g.maxCoord ⟨lo, k⟩ → SameOptions options q →
    dcBuildNode env g epsilon simplify k depth lo q = some (q', t) → ∀ x ∈ (locate t ⟨lo, k⟩).leaves, ErrLeaf env g options epsilon x := by
  intro k
  induction k with
  | zero => intro depth lo q q' n hin ho hb; exact err_leaf ht hF hcl (cubeIn_cell hin) ho hb
  | succ k ih =>
    intro depth lo q q' t hin ho hb
    have hok := dcBuildNode_ok hF _ _ _ _ _ _ hin hb
    rw [dcBuildNode] at hb
    split at hb
    · cases hb
    rename_i q1 ch hch
    obtain ⟨ho1, hch⟩ := threadM_spec (fun q1 => SameOptions options q1) 8 _ (fun i s s' a hs hb => by
      rw [childCorner_eq] at hb
      exact sameOptions_trans hs (dcBuildNode_same hF _ _ _ _ _ _ (cubeIn_octant hin i) hb)) ho hch
    have hkid : ∀ i, TreeOK g (ch i) ⟨octCorner lo (2 ^ k) i, k⟩ (depth + 1) ∧
        ∀ x ∈ (locate (ch i) ⟨octCorner lo (2 ^ k) i, k⟩).leaves, ErrLeaf env g options epsilon x := by
      intro i
      obtain ⟨a, a', hoa, hi⟩ := hch i
      rw [childCorner_eq] at hi
      exact ⟨dcBuildNode_ok hF _ _ _ _ _ _ (cubeIn_octant hin i) hi, ih _ _ _ _ _ (cubeIn_octant hin i) hoa hi⟩
    have hinner : ∀ x ∈ (locate (Oct.inner depth ch : DcNode ℝ) ⟨lo, k + 1⟩).leaves, ErrLeaf env g options epsilon x := by
      intro x hx
      simp only [locate, Oct.leaves] at hx
      obtain ⟨i, -, hx⟩ := List.mem_flatMap.1 hx
      exact (hkid i).2 x hx
    unfold dcTryCollapse at hb
    split at hb
    · cases hb; exact hinner
    rename_i l hl
    split at hb
    · rename_i hh
      cases hb
      intro x hx hf'
      simp only [locate, Oct.leaves, List.mem_singleton] at hx
      subst hx
      obtain ⟨d, hd, -⟩ := hok.1.dual hf'
      cases hd
    rename_i hnh
    split at hb
    swap
    · cases hb; exact hinner
    split at hb
    swap
    · cases hb; exact hinner
    simp only [dcFit, Option.bind_eq_bind, Option.bind_eq_some_iff] at hb
    obtain ⟨qa, ha, qv, hv, err, he, hb⟩ := hb
    split at hb
    · cases hb; exact hinner
    rename_i hle
    obtain ⟨qs, hqs, hb⟩ := Option.bind_eq_some_iff.1 hb
    cases hb
    have hl' := dcLeafChildren_some hl
    have hleaf : ∀ i, LeafOK g ⟨octCorner lo (2 ^ k) i, k⟩ (l i) ∧ ErrLeaf env g options epsilon (⟨octCorner lo (2 ^ k) i, k⟩, l i) := by
      intro i
      obtain ⟨a, b⟩ := hkid i
      rw [hl' i] at a b
      exact ⟨a.1, b _ (by simp [locate, Oct.leaves])⟩
    obtain ⟨r1, -⟩ := dcMerge_run _ _ _ _ ha
    set σ : Fin 8 → Option (QState ℝ 3) := fun i => if (l i).homogeneous then none else (l i).dual.map (·.qef) with hσ
    have hr : runOps qef3Rows 30 env.tiny options (cubeCalls k lo σ) = some qv.1 := by
      unfold dcSolveBox at hv
      rw [(upper_eq (K := ℝ) lo 0).1, (upper_eq (K := ℝ) lo (k + 1)).2] at hv
      have r2 : runOps qef3Rows 30 env.tiny options.reset (((List.finRange 8).filterMap σ).map .merge) = some qa.1 := by
        rw [← reset_eq ho1]; exact r1
      unfold runOps at r2
      rw [cubeCalls, List.cons_append, runOps, List.foldlM_cons]
      change (List.foldlM (fun q (op : QefOp ℝ 3) => QefOp.apply qef3Rows 30 env.tiny q op) options.reset _) = _
      rw [List.foldlM_append, r2]
      simp only [List.foldlM_cons, List.foldlM_nil, QefOp.apply, hv, Option.bind_eq_bind, Option.bind_some]
      rfl
    have hσ1 : ∀ i t, σ i = some t → CubeState env.eps env.tiny g options k (octCorner lo (2 ^ k) i) t ∧
        ∀ p, stateErr t p = cubeErr env.eps g k (octCorner lo (2 ^ k) i) p := by
      intro i t hi
      simp only [hσ] at hi
      split at hi
      · cases hi
      · rename_i hh
        obtain ⟨D, e1, e2, e3, -⟩ := (hleaf i).2 (by simpa using hh)
        rw [e1] at hi; cases hi
        exact ⟨e2, e3⟩
    have hσ2 : ∀ i, σ i = none → ∀ p, cubeErr env.eps g k (octCorner lo (2 ^ k) i) p = 0 := by
      intro i hi
      simp only [hσ] at hi
      split at hi
      · rename_i hh
        exact uniform_err hF _ _ _ ((hleaf i).1.homog hh)
      · rename_i hh
        obtain ⟨D, e1, -⟩ := (hleaf i).2 (by simpa using hh)
        rw [e1] at hi; cases hi
    obtain ⟨i1, k2, k3⟩ := cube_calls_err ht hcl hin hσ1 hσ2 hr
    intro x hx hf'
    simp only [locate, Oct.leaves, List.mem_singleton] at hx
    subst hx
    refine ⟨_, rfl, .node (fun i t h => (hσ1 i t h).1) hr (q2 := qs.1) (by rw [hqs]), k3 qs.1 qs.2 (by rw [hqs]), Or.inr ?_⟩
    dsimp only
    rw [toVecN_ofVecN, ← k2]
    rw [eval_eq _ i1.rows] at he
    cases he
    exact not_lt.1 hle

/-- C102.  Every vertex of the mesh of a built octree belongs to a crossed leaf of the tree; if that leaf is bigger than a cell, the sum of the squared
distances from the vertex to the tangent planes of all the surface crossings in the leaf's cube is at most the error given to `build`,
in grid units. -/
theorem C102_dc_octree (ht : 0 < env.tiny) (hF : Filled g) (hcl : CleanBuild env.eps env.tiny g options) {o o' o'' : DcOctree ℝ} {q' : Qef ℝ 3}
    {epsilon : ℝ} {simplify : Bool} (hin : CubeIn g.maxCoord (rootCube o.level)) (hb : o.build env g options epsilon simplify = some (q', o'))
    {r : PlacedMesh ℝ} (hc : o'.contour = some (r, o'')) :
    ∀ v ∈ r.mesh.vertices, ∃ c ∈ leafCubes o'.root (rootCube o.level), Hetero g c ∧
      (c.k = 0 ∨ cubeErr env.eps g c.k c.lo v.position.toVecN ≤ epsilon / (o.globalScale * o.globalScale)) := by
  obtain ⟨htree, -⟩ := build_ok hF hin hb
  have hleaf : ∀ x ∈ (locate o'.root (rootCube o.level)).leaves, ErrLeaf env g options (epsilon / (o.globalScale * o.globalScale)) x := by
    have hin' := hin
    rw [← rootCube_eq] at hin' ⊢
    unfold DcOctree.build at hb
    split at hb
    · cases hb
    rename_i q root hn'
    cases hb
    exact err_node ht hF hcl _ _ _ _ _ _ hin' (sameOptions_refl _) hn'
  have hk : (rootCube o.level).k ≤ 10 := by rw [rootCube_k]; exact level_le hF hin
  obtain ⟨vs, o1, visits, a1, -, -, a4, -⟩ := contour_eq htree hk
  rw [a1] at hc
  cases hc
  intro v hv
  obtain ⟨i, hi, rfl⟩ := List.getElem_of_mem hv
  obtain ⟨hlen, hall⟩ := List.forall₂_iff_get.1 a4
  have hi' : i < (crossedLeaves o'.root.leaves).length := hlen ▸ hi
  obtain ⟨D, hD, hv⟩ := hall i hi' hi
  rw [List.get_eq_getElem, List.get_eq_getElem] at hv
  rw [hv]
  have hm := List.getElem_mem hi'
  rw [List.get_eq_getElem] at hD
  obtain ⟨hm1, hm2⟩ := List.mem_filter.1 hm
  generalize (crossedLeaves o'.root.leaves)[i]'hi' = l at hD hm1 hm2 hv ⊢
  rw [← leaves_locate o'.root (rootCube o.level)] at hm1
  obtain ⟨x, hx, hxe⟩ := List.mem_map.1 hm1
  have hlx : x.2.homogeneous = false := by rw [hxe]; simpa using hm2
  obtain ⟨D', e1, -, -, e4⟩ := hleaf x hx hlx
  rw [hxe, hD] at e1; cases e1
  refine ⟨x.1, List.mem_map.2 ⟨x, hx, rfl⟩, ?_, e4⟩
  have hok := (treeOK_leaf htree x hx).1
  by_contra hne
  have := (homogeneous_iff hok.corners).2 hne
  rw [this] at hlx
  cases hlx

/-! ### Small thresholds -/

theorem run_exists (ops : List (QefOp ℝ 3)) (q : Qef ℝ 3) : ∃ (r : Option (Qef ℝ 3 × QState ℝ 3)) (δ : ℝ), 0 < δ ∧ ∀ t, 0 < t → t ≤ δ →
    CleanRun qef3Rows 30 t q (ops ++ [.state]) ∧ ∀ q1, runOps qef3Rows 30 t q ops = some q1 → q1.state qef3Rows 30 t = r := by
  induction ops generalizing q with
  | nil =>
    obtain ⟨δ, h, h'⟩ := compress_exists qef3Rows q
    refine ⟨q.state qef3Rows 30 δ, δ, h, fun t ht htd => ⟨⟨(h' t ht htd).1, fun _ _ => trivial⟩, fun q1 hq => ?_⟩⟩
    cases hq
    simp only [Qef.state, (h' t ht htd).2, Option.bind_eq_bind]
  | cons op ops ih =>
    obtain ⟨δ1, h1, h1'⟩ := apply_exists (d := 1) qef3Rows 30 q op
    cases hq : op.apply (d := 1) qef3Rows 30 δ1 q with
    | none =>
      refine ⟨none, δ1, h1, fun t ht htd => ⟨⟨(h1' t ht htd).1, fun q' hq' => ?_⟩, fun q' hq' => ?_⟩⟩
      · rw [(h1' t ht htd).2, hq] at hq'
        simp at hq'
      · rw [runOps, List.foldlM_cons, (h1' t ht htd).2, hq] at hq'
        simp at hq'
    | some q1 =>
      obtain ⟨r, δ2, h2, h2'⟩ := ih q1
      refine ⟨r, min δ1 δ2, lt_min h1 h2, fun t ht htd => ?_⟩
      have l1 := le_trans htd (min_le_left δ1 δ2)
      have l2 := le_trans htd (min_le_right δ1 δ2)
      refine ⟨⟨(h1' t ht l1).1, fun q' hq' => ?_⟩, fun q' hq' => ?_⟩
      · rw [(h1' t ht l1).2, hq, Option.some.injEq] at hq'
        subst hq'
        exact (h2' t ht l2).1
      · rw [runOps, List.foldlM_cons, (h1' t ht l1).2, hq] at hq'
        exact (h2' t ht l2).2 q' hq'

/-- A finite family of histories: one threshold, and finitely many final states. -/
theorem runs_exists (L : List (List (QefOp ℝ 3))) (q : Qef ℝ 3) : ∃ (S : List (QState ℝ 3)) (δ : ℝ), 0 < δ ∧ ∀ t, 0 < t → t ≤ δ →
    ∀ ops ∈ L, CleanRun qef3Rows 30 t q (ops ++ [.state]) ∧
      ∀ q1 q2 s, runOps qef3Rows 30 t q ops = some q1 → q1.state qef3Rows 30 t = some (q2, s) → s ∈ S := by
  induction L with
  | nil => exact ⟨[], 1, one_pos, fun _ _ _ _ h => absurd h List.not_mem_nil⟩
  | cons ops L ih =>
    obtain ⟨S, δ, h, h'⟩ := ih
    obtain ⟨r, δ1, h1, h1'⟩ := run_exists ops q
    refine ⟨(r.map (·.2)).toList ++ S, min δ δ1, lt_min h h1, fun t ht htd ops' hm => ?_⟩
    rcases List.mem_cons.1 hm with rfl | hm
    · obtain ⟨a, b⟩ := h1' t ht (htd.trans (min_le_right _ _))
      refine ⟨a, fun q1 q2 s hq hs => List.mem_append.2 (.inl ?_)⟩
      rw [b q1 hq] at hs
      rw [hs]; simp
    · obtain ⟨a, b⟩ := h' t ht (htd.trans (min_le_left _ _)) ops' hm
      exact ⟨a, fun q1 q2 s hq hs => List.mem_append.2 (.inr (b q1 q2 s hq hs))⟩

theorem cell_clean (hF : Filled g) (eps : ℝ) (options : Qef ℝ 3) (P : IVec3) : ∃ (S : List (QState ℝ 3)) (δ : ℝ), 0 < δ ∧ ∀ t, 0 < t → t ≤ δ →
    (∀ es, StoredEdges g P es → CleanRun qef3Rows 30 t options (cellCalls eps P es ++ [.state])) ∧
      ∀ s, CubeState eps t g options 0 P s → s ∈ S := by
  obtain ⟨S, δ, h, h'⟩ := runs_exists ((cellEdgeList g P).permutations.map (cellCalls eps P)) options
  have hm : ∀ es, StoredEdges g P es → cellCalls eps P es ∈ (cellEdgeList g P).permutations.map (cellCalls eps P) := fun es hes =>
    List.mem_map.2 ⟨es, List.mem_permutations.2 (cellEdgeList_perm hF hes).symm, rfl⟩
  refine ⟨S, δ, h, fun t ht htd => ⟨fun es hes => (h' t ht htd _ (hm es hes)).1, fun s hs => ?_⟩⟩
  cases hs with
  | cell a b c => exact (h' t ht htd _ (hm _ a)).2 _ _ _ b c

theorem cube_clean (hF : Filled g) (eps : ℝ) (options : Qef ℝ 3) : ∀ (k : Nat) (lo : IVec3),
    ∃ (S : List (QState ℝ 3)) (δ : ℝ), 0 < δ ∧ ∀ t, 0 < t → t ≤ δ →
      (∀ σ : Fin 8 → Option (QState ℝ 3), (∀ i s, σ i = some s → CubeState eps t g options k (octCorner lo (2 ^ k) i) s) →
        CleanRun qef3Rows 30 t options (cubeCalls k lo σ ++ [.state])) ∧
      ∀ s, CubeState eps t g options (k + 1) lo s → s ∈ S := by
  classical
  have step : ∀ k, (∀ lo, ∃ (S : List (QState ℝ 3)) (δ : ℝ), 0 < δ ∧ ∀ t, 0 < t → t ≤ δ → ∀ s, CubeState eps t g options k lo s → s ∈ S) →
      ∀ lo, ∃ (S : List (QState ℝ 3)) (δ : ℝ), 0 < δ ∧ ∀ t, 0 < t → t ≤ δ →
      (∀ σ : Fin 8 → Option (QState ℝ 3), (∀ i s, σ i = some s → CubeState eps t g options k (octCorner lo (2 ^ k) i) s) →
        CleanRun qef3Rows 30 t options (cubeCalls k lo σ ++ [.state])) ∧
      ∀ s, CubeState eps t g options (k + 1) lo s → s ∈ S := by
    intro k hk lo
    choose S δ hδ hS using fun i => hk (octCorner lo (2 ^ k) i)
    obtain ⟨δ0, h0, hle⟩ := delta_list (List.finRange 8) (fun i t => ∀ s, CubeState eps t g options k (octCorner lo (2 ^ k) i) s → s ∈ S i)
      fun i _ => ⟨δ i, hδ i, hS i⟩
    let Sf : Fin 8 → Set (Option (QState ℝ 3)) := fun i => insert none (some '' {s | s ∈ S i})
    have hfin : (Set.univ.pi Sf).Finite := Set.Finite.pi fun i => ((List.finite_toSet _).image _).insert _
    obtain ⟨S', δ', h1, h1'⟩ := runs_exists (hfin.toFinset.toList.map (cubeCalls k lo)) options
    have hmem : ∀ t, 0 < t → t ≤ min δ0 δ' → ∀ σ : Fin 8 → Option (QState ℝ 3),
        (∀ i s, σ i = some s → CubeState eps t g options k (octCorner lo (2 ^ k) i) s) →
        cubeCalls k lo σ ∈ hfin.toFinset.toList.map (cubeCalls k lo) := by
      intro t ht htd σ hσ
      refine List.mem_map.2 ⟨σ, ?_, rfl⟩
      rw [Finset.mem_toList, Set.Finite.mem_toFinset]
      intro i _
      cases hi : σ i with
      | none => exact Set.mem_insert _ _
      | some s => exact Set.mem_insert_of_mem _ ⟨s, hle t ht (htd.trans (min_le_left _ _)) i (List.mem_finRange i) s (hσ i s hi), rfl⟩
    refine ⟨S', min δ0 δ', lt_min h0 h1, fun t ht htd => ⟨fun σ hσ => (h1' t ht (htd.trans (min_le_right _ _)) _ (hmem t ht htd σ hσ)).1, fun s hs => ?_⟩⟩
    cases hs with
    | node a b c => exact (h1' t ht (htd.trans (min_le_right _ _)) _ (hmem t ht htd _ a)).2 _ _ _ b c
  intro k
  induction k with
  | zero =>
    exact step 0 fun lo => by
      obtain ⟨S, δ, h, h'⟩ := cell_clean hF eps options lo
      exact ⟨S, δ, h, fun t ht htd => (h' t ht htd).2⟩
  | succ k ih =>
    exact step (k + 1) fun lo => by
      obtain ⟨S, δ, h, h'⟩ := ih lo
      exact ⟨S, δ, h, fun t ht htd => (h' t ht htd).2⟩

/-- The lattice points of a cube, as a list. -/
theorem points_list (h : Int) : ∃ L : List IVec3, ∀ p, InCube h p → p ∈ L := by
  refine ⟨(Finset.Icc (-h) h).toList.flatMap fun x => (Finset.Icc (-h) h).toList.flatMap fun y => (Finset.Icc (-h) h).toList.map fun z => ⟨x, y, z⟩,
    fun p hp => ?_⟩
  simp only [List.mem_flatMap, List.mem_map, Finset.mem_toList, Finset.mem_Icc]
  exact ⟨p.x, hp.1, p.y, hp.2.1, p.z, hp.2.2, rfl⟩

/-- C102.  For every filled grid and every small enough threshold of the solver no compression meets a tiny column. -/
theorem C102_clean (hF : Filled g) (eps : ℝ) (options : Qef ℝ 3) : ∃ δ : ℝ, 0 < δ ∧ ∀ tiny, 0 < tiny → tiny ≤ δ → CleanBuild eps tiny g options := by
  obtain ⟨L, hL⟩ := points_list g.maxCoord
  obtain ⟨δ1, h1, h1'⟩ := delta_list L (fun P t => ∀ es, StoredEdges g P es → CleanRun qef3Rows 30 t options (cellCalls eps P es ++ [.state]))
    fun P _ => by
      obtain ⟨S, δ, h, h'⟩ := cell_clean hF eps options P
      exact ⟨δ, h, fun t ht htd => (h' t ht htd).1⟩
  obtain ⟨δ2, h2, h2'⟩ := delta_list ((List.range (2 * g.maxCoord.toNat + 1)).flatMap fun k => L.map fun P => (k, P))
    (fun x t => ∀ σ : Fin 8 → Option (QState ℝ 3), (∀ i s, σ i = some s → CubeState eps t g options x.1 (octCorner x.2 (2 ^ x.1) i) s) →
        CleanRun qef3Rows 30 t options (cubeCalls x.1 x.2 σ ++ [.state]))
    fun x _ => by
      obtain ⟨S, δ, h, h'⟩ := cube_clean hF eps options x.1 x.2
      exact ⟨δ, h, fun t ht htd => (h' t ht htd).1⟩
  refine ⟨min δ1 δ2, lt_min h1 h2, fun t ht htd => ⟨fun P es hin hes => ?_, fun k lo σ hin hσ => ?_⟩⟩
  · exact h1' t ht (htd.trans (min_le_left _ _)) P (hL P (hin P (by simp [cellVertices]))) es hes
  · refine h2' t ht (htd.trans (min_le_right _ _)) (k, lo) ?_ σ hσ
    refine List.mem_flatMap.2 ⟨k, List.mem_range.2 ?_, List.mem_map.2 ⟨lo, hL lo (hin lo (lo_closed _)), rfl⟩⟩
    have a := hin lo (lo_closed _)
    have b := hin (octCorner lo (2 ^ (k + 1)) 7) (corner_closed ⟨lo, k + 1⟩ 7)
    have e : (octCorner lo (2 ^ (k + 1)) 7).x = lo.x + 2 ^ (k + 1) := by simp [octCorner, octOff]
    have hb := b.1.2
    rw [e] at hb
    have hp : ((k + 1 : Nat) : Int) < 2 ^ (k + 1) := by exact_mod_cast (Nat.lt_two_pow_self (n := k + 1))
    have ha := a.1.1
    omega

theorem cubeErr_nonneg (eps : ℝ) (p : VecN ℝ 3) : ∀ (k : Nat) (lo : IVec3), 0 ≤ cubeErr eps g k lo p := by
  intro k
  induction k with
  | zero =>
    intro lo
    refine List.sum_nonneg fun x hx => ?_
    obtain ⟨a, -, rfl⟩ := List.mem_map.1 hx
    exact sq_nonneg _
  | succ k ih => exact fun lo => Finset.sum_nonneg fun i _ => ih _

/-- The error of a cube bounds the distance to each of its planes. -/
theorem plane_le (eps : ℝ) (p : VecN ℝ 3) {P : IVec3} {e : GridEdge ℝ} (he : e ∈ edgeList g) (heP : EdgeOfCell P e.axis e.lesser) :
    ∀ (k : Nat) (lo : IVec3), (⟨lo, k⟩ : Cube).Has P → planeErr e.surfacePoint.toVecN (edgeNormal eps e.gradient).toVecN p ≤ cubeErr eps g k lo p := by
  intro k
  induction k with
  | zero =>
    intro lo h
    have : P = lo := by
      have e1 : (2 : Int) ^ 0 = 1 := rfl
      simp only [Cube.Has, Cube.side, e1] at h
      have hx : P.x = lo.x := by omega
      have hy : P.y = lo.y := by omega
      have hz : P.z = lo.z := by omega
      cases P; cases lo
      simp_all
    subst this
    refine List.single_le_sum (fun x hx => ?_) _ ?_
    · obtain ⟨a, -, rfl⟩ := List.mem_map.1 hx
      exact sq_nonneg _
    · refine List.mem_map.2 ⟨_, List.mem_map.2 ⟨e, ?_, rfl⟩, rfl⟩
      unfold cellEdgeList
      exact List.mem_filter.2 ⟨he, by simpa using heP⟩
  | succ k ih =>
    intro lo h
    obtain ⟨i, hi⟩ := octant_exists h
    exact (ih _ hi).trans (Finset.single_le_sum (f := fun i => cubeErr eps g k (octCorner lo (2 ^ k) i) p)
      (fun j _ => cubeErr_nonneg eps p k _) (Finset.mem_univ i))

/-- C102.  In particular a vertex in a merged cube is within `sqrt epsilon` of the tangent plane of every single surface crossing in the cube. -/
theorem C102_planes (ht : 0 < env.tiny) (hF : Filled g) (hcl : CleanBuild env.eps env.tiny g options) {o o' o'' : DcOctree ℝ} {q' : Qef ℝ 3}
    {epsilon : ℝ} {simplify : Bool} (hin : CubeIn g.maxCoord (rootCube o.level)) (hb : o.build env g options epsilon simplify = some (q', o'))
    {r : PlacedMesh ℝ} (hc : o'.contour = some (r, o'')) :
    ∀ v ∈ r.mesh.vertices, ∃ c ∈ leafCubes o'.root (rootCube o.level), Hetero g c ∧ (c.k = 0 ∨
      ∀ P, c.Has P → ∀ e ∈ edgeList g, EdgeOfCell P e.axis e.lesser →
        planeErr e.surfacePoint.toVecN (edgeNormal env.eps e.gradient).toVecN v.position.toVecN ≤ epsilon / (o.globalScale * o.globalScale)) := by
  intro v hv
  obtain ⟨c, h1, h2, h3⟩ := C102_dc_octree ht hF hcl hin hb hc v hv
  exact ⟨c, h1, h2, h3.imp_right fun h P hP e he heP => (plane_le env.eps _ he heP c.k c.lo hP).trans h⟩

end

/-- C102 on a concrete case: the tilted plane through a grid of size 2.  The octree is merged into one cube of side 2 and the hypotheses of C102 hold; the
mesh has a vertex. -/
example (srt : List (DcEntry ℝ) → List (DcEntry ℝ)) : ∃ (g' : Grid ℝ) (env : DcEnv ℝ) (o o' o'' : DcOctree ℝ) (q' : Qef ℝ 3) (r : PlacedMesh ℝ),
    0 < env.tiny ∧ Filled g' ∧ CleanBuild env.eps env.tiny g' Qef.new3 ∧ CubeIn g'.maxCoord (rootCube o.level) ∧
    o.build env g' Qef.new3 1 true = some (q', o') ∧ o'.contour = some (r, o'') ∧ o.level = 1 ∧
    leafCubes o'.root (rootCube o.level) = [rootCube 1] ∧ r.mesh.vertices ≠ [] := by
  obtain ⟨g, hg⟩ : ∃ g0, Grid.mk' 2 (⟨0, 0, 0⟩ : Vec3 ℝ) 1 = .ok g0 := ⟨_, rfl⟩
  have hre : g.Reachable := .mk hg
  have hgp : g.globalPos = ⟨0, 0, 0⟩ ∧ g.step = 1 ∧ g.maxCoord = 1 := by
    cases hg; exact ⟨rfl, rfl, rfl⟩
  have hprop : ProperField tiltField := oneMaterial_proper tilt_material
  obtain ⟨g', hfill, ⟨hsz, hhf, hpos, hst⟩, hat⟩ := C06_fill_materials hre tiltField (regulaFalsiFinder 0 16)
  have hF := C07_filled hre hprop hfill
  have hm' : g'.maxCoord = 1 := by rw [← hgp.2.2]; exact hhf
  have hin := cubeIn_demo hm'
  have hp : 0 < (Qef.new3 : Qef ℝ 3).pinvTolerance := by simp only [Qef.new3]; norm_num
  obtain ⟨δ, hδ, hall⟩ := C102_clean hF 0 Qef.new3
  have hδ' : 0 < min δ (1 / 2 ^ 126) := lt_min hδ (by norm_num)
  let env : DcEnv ℝ := ⟨0, min δ (1 / 2 ^ 126), fun v => v, srt⟩
  have hdir : GoodDirection env ⟨1, 1, 1⟩ := by
    refine goodDirection_exact rfl hδ' (fun h => by have := congrArg Vec3.x h; norm_num at this) ?_
    intro a
    right
    rw [length_sq]
    have : env.tiny ≤ 1 / 2 ^ 126 := min_le_right _ _
    have h2 : (1 : ℝ) / 2 ^ 126 * 3 ≤ 1 := by norm_num
    cases a <;> simp only [Vec3.get] <;> nlinarith
  let o : DcOctree ℝ := ⟨1, ⟨0, 0, 0⟩, 1, .leaf ⟨0, fun _ => .Empty, none, none⟩⟩
  obtain ⟨q', o', r, o'', hb, -, hc⟩ := C22_completes (env := env) hF o 1 (simplify := true) hin hp (Or.inr (by decide))
  have hone := (C71_plane_vanishes hre (by rw [hgp.2.1]; norm_num) tilt_plane tilt_material hfill hdir zero_le_one (by decide) hin hb hc).1
  refine ⟨g', env, o, o', o'', q', r, hδ', hF, hall _ hδ' (min_le_left _ _), hin, hb, hc, rfl, hone, ?_⟩
  obtain ⟨htree, -⟩ := build_ok hF hin hb
  have hk : (rootCube o.level).k ≤ 10 := by rw [rootCube_k]; exact level_le hF hin
  obtain ⟨vs, o1, visits, a1, -, -, a4, a5, -⟩ := contour_eq htree hk
  rw [a1] at hc
  cases hc
  have hlen := a4.length_eq
  rw [a5, hone] at hlen
  have hhet : Hetero g' (rootCube o.level) := by
    refine ⟨0, 7, ?_⟩
    have e0 : octCorner (rootCube o.level).lo (rootCube o.level).side 0 = ⟨-1, -1, -1⟩ := by decide
    have e7 : octCorner (rootCube o.level).lo (rootCube o.level).side 7 = ⟨1, 1, 1⟩ := by decide
    rw [e0, e7, solidAt_fill hre hprop hfill (by rw [hm']; decide), solidAt_fill hre hprop hfill (by rw [hm']; decide), hgp.1, hgp.2.1]
    intro hd
    replace hd := decide_eq_decide.1 hd
    simp only [tiltField, worldPos] at hd
    norm_num at hd
  intro h0
  dsimp only at h0
  rw [h0] at hlen
  simp [hhet] at hlen

end Isomesh
