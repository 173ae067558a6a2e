import Verif.Spec.MdcError
import Verif.Props.DcError
import Verif.Props.FlatMdc

/-! C103: the error bound of manifold dual contouring is a bound on the distances to the tangent planes. -/

namespace Isomesh
open Spec

section
variable {env : DcEnv ℝ} {g : Grid ℝ} {options : Qef ℝ 3}

theorem edgeErr_record (hF : Filled g) (eps : ℝ) {e : GridEdge ℝ} (he : e ∈ edgeList g) (p : VecN ℝ 3) :
    edgeErr eps g (LEdge.ofGridEdge e) p = planeErr e.surfacePoint.toVecN (edgeNormal eps e.gradient).toVecN p := by
  have hnd : (edgeList g).Nodup := hF.stored.edgeList_nodup.imp fun h e => h (by rw [e])
  have hinj : ∀ r ∈ edgeList g, LEdge.ofGridEdge r = LEdge.ofGridEdge e → r = e := by
    intro r hr h
    by_contra hne
    have : Std.Symm (fun a b : GridEdge ℝ => LEdge.ofGridEdge a ≠ LEdge.ofGridEdge b) := ⟨fun _ _ h => h.symm⟩
    exact hF.stored.edgeList_nodup.forall hr he hne h
  have hp : ((edgeList g).filter fun r => decide (LEdge.ofGridEdge r = LEdge.ofGridEdge e)).Perm [e] := by
    refine (List.perm_ext_iff_of_nodup (hnd.filter _) (List.nodup_singleton _)).2 fun r => ?_
    simp only [List.mem_filter, decide_eq_true_eq, List.mem_singleton]
    exact ⟨fun h => hinj r h.1 h.2, fun h => by subst h; exact ⟨he, rfl⟩⟩
  have : edgeErr eps g (LEdge.ofGridEdge e) p = planesErr (edgePlanes eps [e]) p := by
    unfold edgeErr
    convert planesErr_perm (hp.map fun e : GridEdge ℝ => (e.surfacePoint.toVecN, (edgeNormal eps e.gradient).toVecN)) p using 1
    all_goals rfl
  rw [this]
  simp [planesErr, edgePlanes]

/-- The crossings of a sheet are those of the records. -/
theorem sheet_records (hF : Filled g) {P : IVec3} {X : Set CellCrossing} {es : List (GridEdge ℝ)} (hX : SheetOf g P X) (hes : RecordsOf g P X es)
    (x : CellCrossing) : x ∈ X ↔ ∃ e ∈ es, (⟨P, e.axis, e.lesser⟩ : CellCrossing) = x := by
  constructor
  · intro hx
    obtain ⟨y, -, hy⟩ := hX
    obtain ⟨h1, ⟨h2, h3⟩, -⟩ := (hy x).1 hx
    obtain ⟨e, he, hl⟩ := (hF.edge_iff _ _).2 h2
    have hax := hF.edge_axis _ _ he
    have hxe : (⟨P, e.axis, e.lesser⟩ : CellCrossing) = x := by
      cases x
      simp only [CellCrossing.edge] at hl hax h1
      simp [hl, hax, h1]
    refine ⟨e, (hes.2 e).2 ⟨?_, by rw [hxe]; exact hx⟩, hxe⟩
    rw [mem_edgeList hF, hax]; exact he
  · rintro ⟨e, he, rfl⟩
    exact ((hes.2 e).1 he).2

theorem records_map_nodup (hF : Filled g) {P : IVec3} {X : Set CellCrossing} {es : List (GridEdge ℝ)} (hes : RecordsOf g P X es) :
    (es.map fun e => (⟨P, e.axis, e.lesser⟩ : CellCrossing)).Nodup := by
  apply List.Nodup.map_on _ hes.1
  intro a ha b hb hab
  simp only [CellCrossing.mk.injEq, true_and] at hab
  by_contra hne
  have : Std.Symm (fun a b : GridEdge ℝ => LEdge.ofGridEdge a ≠ LEdge.ofGridEdge b) := ⟨fun _ _ h => h.symm⟩
  exact (hF.stored.edgeList_nodup).forall ((hes.2 a).1 ha).1 ((hes.2 b).1 hb).1 hne (by simp only [LEdge.ofGridEdge, hab])

theorem sheet_finite (hF : Filled g) {P : IVec3} {X : Set CellCrossing} (hX : SheetOf g P X) :
    X ⊆ (fun e : GridEdge ℝ => (⟨P, e.axis, e.lesser⟩ : CellCrossing)) '' {e | e ∈ edgeList g} := by
  intro x hx
  obtain ⟨y, -, hy⟩ := hX
  obtain ⟨h1, ⟨h2, h3⟩, -⟩ := (hy x).1 hx
  obtain ⟨e, he, hl⟩ := (hF.edge_iff _ _).2 h2
  have hax := hF.edge_axis _ _ he
  refine ⟨e, ?_, ?_⟩
  · show e ∈ edgeList g
    rw [mem_edgeList hF, hax]; exact he
  · cases x
    simp only [CellCrossing.edge] at hl hax h1
    simp [hl, hax, h1]

theorem sheet_err (hF : Filled g) (eps : ℝ) {P : IVec3} {X : Set CellCrossing} {es : List (GridEdge ℝ)} (hX : SheetOf g P X) (hes : RecordsOf g P X es)
    (p : VecN ℝ 3) : planesErr (edgePlanes eps es) p = crossErr eps g X p := by
  classical
  have e1 : X = ((es.map fun e => (⟨P, e.axis, e.lesser⟩ : CellCrossing)).toFinset : Set CellCrossing) := by
    ext x
    rw [sheet_records hF hX hes x]
    simp
  unfold crossErr
  rw [e1, finsum_mem_coe_finset, List.sum_toFinset _ (records_map_nodup hF hes)]
  simp only [planesErr, edgePlanes, List.map_map]
  congr 1
  refine List.map_congr_left fun e he => ?_
  simp only [Function.comp]
  exact (edgeErr_record hF eps ((hes.2 e).1 he).1 p).symm

theorem split_err {S : Type} (eps : ℝ) {c : Cube} {X : Set CellCrossing} {kids : List (Cube × Set CellCrossing × S)} (h : SplitInto c X kids)
    (hfin : ∀ k ∈ kids, k.2.1.Finite) (p : VecN ℝ 3) :
    X.Finite ∧ (kids.map fun k => crossErr eps g k.2.1 p).sum = crossErr eps g X p := by
  obtain ⟨-, -, h3, h4⟩ := h
  induction kids generalizing X with
  | nil =>
    have : X = ∅ := by ext x; simp [h4]
    subst this
    simp [crossErr]
  | cons k kids ih =>
    obtain ⟨i1, i2⟩ := ih (X := {x | ∃ k ∈ kids, x ∈ k.2.1}) (fun k hk => hfin k (List.mem_cons_of_mem _ hk)) (List.pairwise_cons.1 h3).2 fun x => Iff.rfl
    have e : X = k.2.1 ∪ {x | ∃ k ∈ kids, x ∈ k.2.1} := by
      ext x
      rw [h4, Set.mem_union, List.exists_mem_cons_iff]; rfl
    have hf := hfin k List.mem_cons_self
    refine ⟨by rw [e]; exact hf.union i1, ?_⟩
    rw [List.map_cons, List.sum_cons, i2, e]
    unfold crossErr
    rw [finsum_mem_union _ hf i1]
    rw [Set.disjoint_left]
    rintro x hx ⟨k', hk', hx'⟩
    exact (List.pairwise_cons.1 h3).1 k' hk' x hx hx'

/-- The error of a vertex is the sum over its crossings. -/
theorem fit_err (ht : 0 < env.tiny) (hF : Filled g) {root : Cube} (hcl : CleanMdc env.eps env.tiny g options root) {c : Cube} {X : Set CellCrossing}
    {w : FitVertex ℝ} (hv : VertexFit env g options c X w) : Dyadic root c → FitState env.eps env.tiny g options c X w.state ∧ X.Finite ∧
      (∀ p, stateErr w.state p = crossErr env.eps g X p) ∧ w.error = crossErr env.eps g X w.position.toVecN := by
  have fin : ∀ {c : Cube} {q1 : Qef ℝ 3} {v : FitVertex ℝ} {ops : List (QefOp ℝ 3)} {E : VecN ℝ 3 → ℝ},
      runOps qef3Rows 30 env.tiny options (.reset :: ops) = some q1 → BoxFit env c q1 v →
      CleanRun qef3Rows 30 env.tiny options (.reset :: ops ++ [boxSolve c] ++ [.state]) →
      (∀ p, ops.foldl (fun e op => op.addTo p e) 0 = E p) →
      ∃ q2 q3, runOps qef3Rows 30 env.tiny options (.reset :: ops ++ [boxSolve c]) = some q2 ∧ q2.state qef3Rows 30 env.tiny = some (q3, v.state) ∧
        (∀ p, stateErr v.state p = E p) ∧ v.error = E v.position.toVecN := by
    intro c q1 v ops E hr hb hc hE
    obtain ⟨q2, x, q3, h1, h2, h3, h4⟩ := hb
    have hr2 : runOps qef3Rows 30 env.tiny options (.reset :: ops ++ [boxSolve c]) = some q2 := by
      unfold runOps at hr ⊢
      rw [List.foldlM_append, hr]
      simp only [List.foldlM_cons, List.foldlM_nil, boxSolve, QefOp.apply, h1, Option.bind_eq_bind, Option.bind_some]
      rfl
    obtain ⟨k1, k2, k3⟩ := calls_err ht (ops := ops ++ [boxSolve c]) hc hr2
    have key : ∀ p, qerr q2 p = E p := by
      intro p
      rw [k2, List.foldl_append, hE]
      rfl
    refine ⟨q2, q3, hr2, h4, fun p => (k3 q3 _ h4 p).trans (key p), ?_⟩
    rw [eval_eq _ k1.rows] at h3
    rw [h2, toVecN_ofVecN, ← key]
    exact (Option.some.inj h3).symm
  induction hv with
  | @cell P X w es q1 ps h1 h2 h3 h4 h5 _ _ _ _ =>
    intro hd
    have hes : RecordsOf g P X es := ⟨h2, h3⟩
    obtain ⟨q2, q3, r1, r2, r3, r4⟩ := fin (E := fun p => crossErr env.eps g X p) h4 h5 (hcl.cell P X es hd h1 hes) fun p => by
      rw [planes_foldl, zero_add]; exact sheet_err hF _ h1 hes p
    exact ⟨.cell h1 hes r1 r2, ((List.finite_toSet _).image _).subset (sheet_finite hF h1), r3, r4⟩
  | @node c X w kids q1 h1 h2 h3 h4 h5 h6 h7 _ _ ih =>
    intro hd
    have hk : ∀ k ∈ kids, FitState env.eps env.tiny g options k.1 k.2.1 k.2.2.state ∧ k.2.1.Finite ∧
        (∀ p, stateErr k.2.2.state p = crossErr env.eps g k.2.1 p) := fun k hk => by
      obtain ⟨a, b, c, -⟩ := ih k hk (dyadic_trans hd (h3 k hk).1)
      exact ⟨a, b, c⟩
    let ks : List (Cube × Set CellCrossing × QState ℝ 3) := kids.map fun k => (k.1, k.2.1, k.2.2.state)
    have hmap : (ks.map fun k => k.2.2) = kids.map fun k => k.2.2.state := by simp [ks, List.map_map, Function.comp_def]
    have hsp : SplitInto c X ks := by
      refine ⟨by simpa [ks] using h1, ?_, ?_, ?_⟩
      · intro k hk'
        obtain ⟨k', hk2, rfl⟩ := List.mem_map.1 hk'
        exact h3 k' hk2
      · exact List.pairwise_map.2 h4
      · intro x
        rw [h5]
        simp [ks]
    have hst : ∀ k ∈ ks, FitState env.eps env.tiny g options k.1 k.2.1 k.2.2 := by
      intro k hk'
      obtain ⟨k', hk2, rfl⟩ := List.mem_map.1 hk'
      exact (hk k' hk2).1
    have hfin : ∀ k ∈ ks, k.2.1.Finite := by
      intro k hk'
      obtain ⟨k', hk2, rfl⟩ := List.mem_map.1 hk'
      exact (hk k' hk2).2.1
    have hcln := hcl.node c X ks hd hsp hst
    rw [hmap] at hcln
    have hops : (kids.map fun k => QefOp.merge k.2.2.state) = (kids.map fun k => k.2.2.state).map QefOp.merge := by
      rw [List.map_map]; rfl
    rw [hops] at h6
    obtain ⟨q2, q3, r1, r2, r3, r4⟩ := fin (E := fun p => crossErr env.eps g X p) h6 h7 hcln fun p => by
      rw [merges_foldl, zero_add, ← (split_err (g := g) env.eps hsp hfin p).2]
      simp only [ks, List.map_map]
      congr 1
      refine List.map_congr_left fun k hk' => ?_
      simp only [Function.comp]
      exact (hk k hk').2.2 p
    refine ⟨.node hsp hst (by rw [hmap]; exact r1) r2, (split_err (g := g) env.eps hsp hfin w.position.toVecN).1, r3, r4⟩

/-- C103.  In the mesh contoured with the error bound `ε`, after any earlier `contour` calls, a vertex that does not belong to a single cell has a sum of
squared distances to the tangent planes of all the crossings it stands for of at most `ε`, in grid units. -/
theorem C103_mdc_octree (ht : 0 < env.tiny) (hF : Filled g) {o o' o1 o2 : MdcOctree ℝ} (hcl : CleanMdc env.eps env.tiny g options (rootCube o.level))
    {q' : Qef ℝ 3} (hlev : o.level ≤ 9) (hsc : o.globalScale ≠ 0)
    (hin : CubeIn g.maxCoord (rootCube o.level)) (hb : o.build env g options = some (q', o')) {bounds : List ℝ}
    (h1 : contourAll o' bounds = some o1) {ε : ℝ} {r : PlacedMesh ℝ} (h2 : o1.contour ε = some (r, o2)) :
    ∃ V : CellCrossing → Nat, MdcMesh g (rootCube o.level) V r.mesh ∧ ∀ (n : Nat) v, r.mesh.vertices[n]? = some v →
      ∃ c, Dyadic (rootCube o.level) c ∧ c.ClosedR v.position ∧ (∀ x : CellCrossing, x.In g (rootCube o.level) → V x = n → c.Has x.cell) ∧
        (c.k = 0 ∨ crossErr env.eps g {x | x.In g (rootCube o.level) ∧ V x = n} v.position.toVecN ≤ ε / (o.globalScale * o.globalScale)) := by
  obtain ⟨M, V, hS, hall⟩ := C28_contour hF hin (C28_sizes g hlev) (mul_self_pos.2 hsc) hb
  obtain ⟨o1', e1, e2⟩ := hall bounds
  rw [h1] at e1; cases e1
  obtain ⟨o2', e3⟩ := e2 ε
  rw [h2] at e3; cases e3
  refine ⟨V ε, hS.mesh ε, fun n v hv => ?_⟩
  obtain ⟨c, w, hd, hfit, rfl, hl, herr⟩ := hS.fit ε n v hv
  obtain ⟨-, hfin, -, he⟩ := fit_err ht hF hcl hfit hd
  obtain ⟨q1, hq⟩ := fit_box hfit
  have hhas : ∀ {c X w}, VertexFit env g options c X w → ∀ x ∈ X, c.Has x.cell := by
    intro c X w hf
    induction hf with
    | @cell P X w es q1 ps h1 =>
      intro x hx
      obtain ⟨y, hy, hX⟩ := h1
      rw [((hX x).1 hx).1]
      exact has_unit P
    | @node c X w kids q1 h1 h2 h3 h4 h5 h6 h7 h8 h9 ih =>
      intro x hx
      obtain ⟨k, hk, hxk⟩ := (h5 x).1 hx
      exact cubeSub_has (dyadic_sub (h3 k hk).1) (ih k hk x hxk)
  exact ⟨c, hd, box_closed hq, fun x hx e => hhas hfit x ⟨hx, e⟩, herr.imp_right fun h => by rw [← he]; exact h⟩

theorem edgeErr_nonneg (eps : ℝ) (e : LEdge) (p : VecN ℝ 3) : 0 ≤ edgeErr eps g e p := by
  refine List.sum_nonneg fun x hx => ?_
  obtain ⟨a, -, rfl⟩ := List.mem_map.1 hx
  exact sq_nonneg _

/-- C103.  In particular the vertex is within `sqrt ε` of the tangent plane of every single crossing it stands for. -/
theorem C103_planes (ht : 0 < env.tiny) (hF : Filled g) {o o' o1 o2 : MdcOctree ℝ} (hcl : CleanMdc env.eps env.tiny g options (rootCube o.level))
    {q' : Qef ℝ 3} (hlev : o.level ≤ 9) (hsc : o.globalScale ≠ 0)
    (hin : CubeIn g.maxCoord (rootCube o.level)) (hb : o.build env g options = some (q', o')) {bounds : List ℝ}
    (h1 : contourAll o' bounds = some o1) {ε : ℝ} {r : PlacedMesh ℝ} (h2 : o1.contour ε = some (r, o2)) :
    ∃ V : CellCrossing → Nat, MdcMesh g (rootCube o.level) V r.mesh ∧ ∀ (n : Nat) v, r.mesh.vertices[n]? = some v →
      (∃ P, ∀ x : CellCrossing, x.In g (rootCube o.level) → V x = n → x.cell = P) ∨
      ∀ x : CellCrossing, x.In g (rootCube o.level) → V x = n → ∀ e ∈ edgeList g, LEdge.ofGridEdge e = x.edge →
        planeErr e.surfacePoint.toVecN (edgeNormal env.eps e.gradient).toVecN v.position.toVecN ≤ ε / (o.globalScale * o.globalScale) := by
  obtain ⟨V, hM, hall⟩ := C103_mdc_octree ht hF hcl hlev hsc hin hb h1 h2
  refine ⟨V, hM, fun n v hv => ?_⟩
  obtain ⟨c, -, -, hhas, herr⟩ := hall n v hv
  rcases herr with hk | herr
  · refine Or.inl ⟨c.lo, fun x hx e => ?_⟩
    have h := hhas x hx e
    simp only [Cube.Has, Cube.side, hk, pow_zero] at h
    have a1 : x.cell.x = c.lo.x := by omega
    have a2 : x.cell.y = c.lo.y := by omega
    have a3 : x.cell.z = c.lo.z := by omega
    calc x.cell = ⟨x.cell.x, x.cell.y, x.cell.z⟩ := rfl
      _ = c.lo := by rw [a1, a2, a3]
  · refine Or.inr fun x hx e r hr hre => le_trans ?_ herr
    rw [← edgeErr_record hF env.eps hr, hre]
    have hfin : {x : CellCrossing | x.In g (rootCube o.level) ∧ V x = n}.Finite := (crossings_count g o.level).1.subset fun x hx => hx.1
    unfold crossErr
    rw [finsum_mem_eq_finite_toFinset_sum _ hfin]
    exact Finset.single_le_sum (f := fun y : CellCrossing => edgeErr env.eps g y.edge v.position.toVecN) (fun y _ => edgeErr_nonneg _ _ _)
      (hfin.mem_toFinset.2 ⟨hx, e⟩)

/-! ### Small thresholds -/

theorem dyadic_inv {c d : Cube} (h : Dyadic c d) : d = c ∨ 0 < c.k ∧ ∃ i, Dyadic (c.octant i) d := by
  induction h with
  | root => exact Or.inl rfl
  | @octant e i hk _ ih =>
    rcases ih with rfl | ⟨h0, j, hj⟩
    · exact Or.inr ⟨hk, i, .root⟩
    · exact Or.inr ⟨h0, j, .octant i hk hj⟩

theorem dyadic_finite : ∀ (n : Nat) (c : Cube), c.k ≤ n → {d | Dyadic c d}.Finite := by
  intro n
  induction n with
  | zero =>
    intro c hc
    refine (Set.finite_singleton c).subset fun d hd => ?_
    rcases dyadic_inv hd with rfl | ⟨h, -⟩
    · rfl
    · omega
  | succ n ih =>
    intro c hc
    by_cases h0 : 0 < c.k
    · refine ((Set.finite_singleton c).union (Set.finite_iUnion fun i : Fin 8 => ih (c.octant i) (by simp only [Cube.octant]; omega))).subset fun d hd => ?_
      rcases dyadic_inv hd with rfl | ⟨-, i, hi⟩
      · exact Or.inl rfl
      · exact Or.inr (Set.mem_iUnion.2 ⟨i, hi⟩)
    · exact ih c (by omega)

theorem nodup_lists {α : Type} (A : Set α) (hA : A.Finite) : ∃ L : List (List α), ∀ l : List α, l.Nodup → (∀ a ∈ l, a ∈ A) → l ∈ L := by
  refine ⟨hA.toFinset.toList.sublists.flatMap List.permutations, fun l hl hs => ?_⟩
  obtain ⟨l', hp, hsub⟩ := hl.subperm (l₂ := hA.toFinset.toList) fun a ha => by simpa using hs a ha
  exact List.mem_flatMap.2 ⟨l', List.mem_sublists.2 hsub, List.mem_permutations.2 hp.symm⟩

theorem fitState_nonempty {eps tiny : ℝ} {c : Cube} {X : Set CellCrossing} {s : QState ℝ 3} (h : FitState eps tiny g options c X s) : X.Nonempty := by
  induction h with
  | cell h _ _ _ => obtain ⟨x, hx, -⟩ := h; exact ⟨x, hx⟩
  | @node c X kids q1 q2 s h _ _ _ ih =>
    obtain ⟨k, hk⟩ := List.exists_mem_of_ne_nil _ h.1
    obtain ⟨x, hx⟩ := ih k hk
    exact ⟨x, (h.2.2.2 x).2 ⟨k, hk, hx⟩⟩

theorem kids_nodup {eps tiny : ℝ} {c : Cube} {X : Set CellCrossing} {kids : List (Cube × Set CellCrossing × QState ℝ 3)} (h : SplitInto c X kids)
    (hf : ∀ k ∈ kids, FitState eps tiny g options k.1 k.2.1 k.2.2) : kids.Nodup := by
  refine h.2.2.1.imp_of_mem fun {a b} ha hb hd hab => ?_
  subst hab
  obtain ⟨x, hx⟩ := fitState_nonempty (hf a ha)
  exact hd x hx hx

theorem sheet_clean (hF : Filled g) (eps : ℝ) (options : Qef ℝ 3) (P : IVec3) :
    ∃ (S : Set (Set CellCrossing × QState ℝ 3)) (δ : ℝ), S.Finite ∧ 0 < δ ∧ ∀ t, 0 < t → t ≤ δ →
      ∀ X es, SheetOf g P X → RecordsOf g P X es → CleanRun qef3Rows 30 t options (sheetCalls eps P es ++ [.state]) ∧
        ∀ q1 q2 s, runOps qef3Rows 30 t options (sheetCalls eps P es) = some q1 → q1.state qef3Rows 30 t = some (q2, s) → (X, s) ∈ S := by
  obtain ⟨L, hL⟩ := nodup_lists {e | e ∈ edgeList g} (List.finite_toSet _)
  obtain ⟨S, δ, h0, h⟩ := runs_exists (L.map (sheetCalls eps P)) options
  refine ⟨((fun e : GridEdge ℝ => (⟨P, e.axis, e.lesser⟩ : CellCrossing)) '' {e | e ∈ edgeList g}).powerset ×ˢ {s | s ∈ S}, δ,
    (((List.finite_toSet (edgeList g)).image _).finite_subsets).prod (List.finite_toSet S), h0, fun t ht htd X es hX hes => ?_⟩
  obtain ⟨a, b⟩ := h t ht htd _ (List.mem_map.2 ⟨es, hL es hes.1 fun e he => ((hes.2 e).1 he).1, rfl⟩)
  exact ⟨a, fun q1 q2 s hr hs => ⟨sheet_finite hF hX, b q1 q2 s hr hs⟩⟩

theorem fit_clean (hF : Filled g) (eps : ℝ) (options : Qef ℝ 3) : ∀ (n : Nat) (c : Cube), c.k ≤ n →
    ∃ (S : Set (Set CellCrossing × QState ℝ 3)) (δ : ℝ), S.Finite ∧ 0 < δ ∧ ∀ t, 0 < t → t ≤ δ →
      (∀ X kids, SplitInto c X kids → (∀ k ∈ kids, FitState eps t g options k.1 k.2.1 k.2.2) →
        CleanRun qef3Rows 30 t options (mergeCalls c (kids.map fun k => k.2.2) ++ [.state])) ∧
      ∀ X s, FitState eps t g options c X s → (X, s) ∈ S := by
  intro n
  induction n with
  | zero =>
    intro c hc
    obtain ⟨S, δ, h1, h2, h3⟩ := sheet_clean hF eps options c.lo
    refine ⟨S, δ, h1, h2, fun t ht htd => ⟨fun X kids hs hf => ?_, fun X s hs => ?_⟩⟩
    · obtain ⟨k, hk⟩ := List.exists_mem_of_ne_nil _ hs.1
      have := (hs.2.1 k hk).2
      omega
    · cases hs with
      | cell a b r1 r2 => exact (h3 t ht htd X _ a b).2 _ _ _ r1 r2
      | @node _ _ kids _ _ _ a _ _ _ =>
        obtain ⟨k, hk⟩ := List.exists_mem_of_ne_nil _ a.1
        have := (a.2.1 k hk).2
        omega
  | succ n ih =>
    intro c hc
    have hD := dyadic_finite (n + 1) c hc
    have hk : ∀ d : Cube, ∃ (S : Set (Set CellCrossing × QState ℝ 3)) (δ : ℝ), S.Finite ∧ 0 < δ ∧ ∀ t, 0 < t → t ≤ δ → d.k ≤ n →
        ∀ X s, FitState eps t g options d X s → (X, s) ∈ S := by
      intro d
      by_cases hd : d.k ≤ n
      · obtain ⟨S, δ, h1, h2, h3⟩ := ih d hd
        exact ⟨S, δ, h1, h2, fun t ht htd _ => (h3 t ht htd).2⟩
      · exact ⟨∅, 1, Set.finite_empty, one_pos, fun _ _ _ h => absurd h hd⟩
    choose S δ hS hδ hall using hk
    obtain ⟨δ0, h0, hle⟩ := delta_list hD.toFinset.toList (fun d t => d.k ≤ n → ∀ X s, FitState eps t g options d X s → (X, s) ∈ S d)
      fun d _ => ⟨δ d, hδ d, hall d⟩
    have hA : (⋃ d ∈ {d | Dyadic c d}, ({d} : Set Cube) ×ˢ S d).Finite := hD.biUnion fun d _ => (Set.finite_singleton d).prod (hS d)
    obtain ⟨L, hL⟩ := nodup_lists _ hA
    obtain ⟨S1, δ1, h1, h1'⟩ := runs_exists (L.map fun kids => mergeCalls c (kids.map fun k => k.2.2)) options
    obtain ⟨S2, δ2, h2, h2', h2''⟩ := sheet_clean hF eps options c.lo
    have hmem : ∀ t, 0 < t → t ≤ δ0 → ∀ X kids, SplitInto c X kids → (∀ k ∈ kids, FitState eps t g options k.1 k.2.1 k.2.2) → kids ∈ L := by
      intro t ht htd X kids hs hf
      refine hL kids (kids_nodup hs hf) fun k hk => ?_
      obtain ⟨d1, d2⟩ := hs.2.1 k hk
      have hkS := hle t ht htd k.1 (by simpa using d1) (by omega) k.2.1 k.2.2 (hf k hk)
      exact Set.mem_biUnion (show k.1 ∈ {d | Dyadic c d} from d1) ⟨rfl, hkS⟩
    refine ⟨S2 ∪ ((fun kids : List (Cube × Set CellCrossing × QState ℝ 3) => {x | ∃ k ∈ kids, x ∈ k.2.1}) '' {l | l ∈ L}) ×ˢ {s | s ∈ S1},
      min δ0 (min δ1 δ2), h2.union (((List.finite_toSet L).image _).prod (List.finite_toSet S1)), lt_min h0 (lt_min h1 h2'), fun t ht htd => ?_⟩
    have t0 := htd.trans (min_le_left _ _)
    have t1 := htd.trans ((min_le_right _ _).trans (min_le_left _ _))
    have t2 := htd.trans ((min_le_right _ _).trans (min_le_right _ _))
    refine ⟨fun X kids hs hf => (h1' t ht t1 _ (List.mem_map.2 ⟨kids, hmem t ht t0 X kids hs hf, rfl⟩)).1, fun X s hs => ?_⟩
    cases hs with
    | cell a b r1 r2 => exact Or.inl ((h2'' t ht t2 X _ a b).2 _ _ _ r1 r2)
    | @node _ _ kids _ _ _ a b r1 r2 =>
      have hm := hmem t ht t0 X kids a b
      refine Or.inr ⟨⟨kids, hm, ?_⟩, (h1' t ht t1 _ (List.mem_map.2 ⟨kids, hm, rfl⟩)).2 _ _ _ r1 r2⟩
      ext x
      exact (a.2.2.2 x).symm

/-- C103.  For every filled grid, root cube and options, and every small enough threshold of the solver, no compression meets a tiny column. -/
theorem C103_clean (hF : Filled g) (eps : ℝ) (options : Qef ℝ 3) (root : Cube) :
    ∃ δ : ℝ, 0 < δ ∧ ∀ tiny, 0 < tiny → tiny ≤ δ → CleanMdc eps tiny g options root := by
  have hD := dyadic_finite root.k root le_rfl
  obtain ⟨δ1, h1, h1'⟩ := delta_list hD.toFinset.toList (fun c t => ∀ X es, SheetOf g c.lo X → RecordsOf g c.lo X es →
      CleanRun qef3Rows 30 t options (sheetCalls eps c.lo es ++ [.state])) fun c _ => by
    obtain ⟨S, δ, -, h2, h3⟩ := sheet_clean hF eps options c.lo
    exact ⟨δ, h2, fun t ht htd X es a b => (h3 t ht htd X es a b).1⟩
  obtain ⟨δ2, h2, h2'⟩ := delta_list hD.toFinset.toList (fun c t => ∀ X kids, SplitInto c X kids →
      (∀ k ∈ kids, FitState eps t g options k.1 k.2.1 k.2.2) →
      CleanRun qef3Rows 30 t options (mergeCalls c (kids.map fun k => k.2.2) ++ [.state])) fun c _ => by
    obtain ⟨S, δ, -, h2, h3⟩ := fit_clean hF eps options c.k c le_rfl
    exact ⟨δ, h2, fun t ht htd => (h3 t ht htd).1⟩
  refine ⟨min δ1 δ2, lt_min h1 h2, fun t ht htd => ⟨fun P X es hd hX hes => ?_, fun c X kids hd hs hf => ?_⟩⟩
  · exact h1' t ht (htd.trans (min_le_left _ _)) ⟨P, 0⟩ (by simpa using hd) X es hX hes
  · exact h2' t ht (htd.trans (min_le_right _ _)) c (by simpa using hd) X kids hs hf

end

/-- C103 on a concrete case: the tilted plane through a grid of size 2 and the octree of side 2 over it, contoured after another `contour` call.  The
hypotheses of C103 hold, and the mesh has a vertex. -/
example (srt : List (DcEntry ℝ) → List (DcEntry ℝ)) : ∃ (g' : Grid ℝ) (env : DcEnv ℝ) (o o' o1 o2 : MdcOctree ℝ) (q' : Qef ℝ 3) (r : PlacedMesh ℝ),
    0 < env.tiny ∧ Filled g' ∧ CleanMdc env.eps env.tiny g' Qef.new3 (rootCube o.level) ∧ o.level = 1 ∧ o.globalScale ≠ 0 ∧
    CubeIn g'.maxCoord (rootCube o.level) ∧ o.build env g' Qef.new3 = some (q', o') ∧ contourAll o' [-1] = some o1 ∧
    o1.contour 1 = some (r, o2) ∧ r.mesh.vertices ≠ [] := by
  obtain ⟨g, hg⟩ : ∃ g0, Grid.mk' 2 (⟨0, 0, 0⟩ : Vec3 ℝ) 1 = .ok g0 := ⟨_, rfl⟩
  have hre : g.Reachable := .mk hg
  have hgp : g.globalPos = ⟨0, 0, 0⟩ ∧ g.step = 1 ∧ g.maxCoord = 1 := by
    cases hg; exact ⟨rfl, rfl, rfl⟩
  have hprop : ProperField tiltField := oneMaterial_proper tilt_material
  obtain ⟨g', hfill, ⟨hsz, hhf, hpos, hst⟩, hat⟩ := C06_fill_materials hre tiltField (regulaFalsiFinder 0 16)
  have hF := C07_filled hre hprop hfill
  have hm' : g'.maxCoord = 1 := by rw [← hgp.2.2]; exact hhf
  have hin := cubeIn_demo hm'
  have hp : 0 < (Qef.new3 : Qef ℝ 3).pinvTolerance := by simp only [Qef.new3]; norm_num
  have hcr : CrossingEdge g' .X ⟨0, 0, 0⟩ := by
    refine ⟨by rw [hm']; decide, ?_⟩
    rw [solidAt_fill hre hprop hfill (by rw [hm']; decide), solidAt_fill hre hprop hfill (by rw [hm']; decide), hgp.1, hgp.2.1]
    simp only [edgeEnd, shift]
    intro hd
    replace hd := decide_eq_decide.1 hd
    simp only [tiltField, worldPos] at hd
    norm_num at hd
  obtain ⟨o, ho, ho2⟩ : ∃ o : MdcOctree ℝ, o.level = 1 ∧ o.globalScale = 1 := ⟨⟨1, g.globalPos, 1, .leaf ⟨0, fun _ => .Empty, 0, []⟩, []⟩, rfl, rfl⟩
  obtain ⟨δ, hδ, hall⟩ := C103_clean hF 0 Qef.new3 (rootCube o.level)
  let env : DcEnv ℝ := ⟨0, δ, fun v => v, srt⟩
  have hsz : 4 * crossingCells g' (rootCube o.level) + 3 < 2 ^ 32 := C28_sizes g' (by rw [ho]; norm_num)
  have hs : o.globalScale ≠ 0 := by rw [ho2]; exact one_ne_zero
  rw [← ho] at hin
  obtain ⟨q', o', o1, hb, -⟩ := C28_completes (env := env) hF o hin (mul_self_pos.2 hs) hp (Or.inr (by rw [ho]; decide)) [-1]
  obtain ⟨M, V, hS, hall'⟩ := C28_contour hF hin hsz (mul_self_pos.2 hs) hb
  obtain ⟨o1', e1, e2⟩ := hall' [-1]
  obtain ⟨o2, e3⟩ := e2 1
  refine ⟨g', env, o, o', o1', o2, q', _, hδ, hF, hall δ hδ le_rfl, ho, hs, hin, hb, e1, e3, ?_⟩
  have hx : (⟨⟨0, 0, 0⟩, .X, ⟨0, 0, 0⟩⟩ : CellCrossing).In g' (rootCube o.level) := by
    rw [ho]
    refine ⟨by simp [Cube.Has, rootCube, Cube.side], hcr, ?_⟩
    intro v hv
    simp [CellCrossing.edge, edgeVertices] at hv
    rcases hv with rfl | rfl <;> simp [cellVertices]
  have := (hS.mesh 1).valid _ hx
  intro h0
  dsimp only at h0
  rw [h0] at this
  simp at this

end Isomesh
