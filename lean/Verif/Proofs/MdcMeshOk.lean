import Verif.Proofs.MdcPieces

/-! The mesh returned by `contour`. -/

namespace Isomesh
open Spec Relation

set_option linter.unusedSectionVars false
variable {K : Type} [Add K] [_root_.Sub K] [Mul K] [Div K] [Neg K] [Zero K] [One K] [OfNat K 2] [OfScientific K] [NatCast K] [IntCast K]
  [Fabs K] [Elem K] [LinearOrder K] [RoundedLaws K]

variable {env : DcEnv K} {g : Grid K} {options : Qef K 3}

open Classical in
/-- Address of the leaf vertex of a crossing. -/
noncomputable def xingAddr (t : MdcNode) (c : Cube) (x : CellCrossing) : Nat :=
  if hx : ∃ a, PieceAt t c x a then hx.choose else 0

theorem xingAddr_spec {t : MdcNode} {c : Cube} {depth : Nat} (ht : MTree g t c depth) (hin : CubeIn g.maxCoord c) {x : CellCrossing}
    (hx : x.In g c) : PieceAt t c x (xingAddr t c x) := by
  have h := xing_exists ht hin hx
  unfold xingAddr
  rw [dif_pos h]
  exact h.choose_spec

/-- Number of the vertex used for a crossing; `ε` is relative to the scale. -/
noncomputable def vtxOf (h : MdcHeap K) (t : MdcNode) (c : Cube) (ε : K) (x : CellCrossing) : Nat :=
  (visList h (collC h t ε) (addrs t)).idxOf (visOf h (collC h t ε) (xingAddr t c x))

/-- The vertices. -/
noncomputable def vtxData (h : MdcHeap K) (t : MdcNode) (ε : K) : List (MeshVertex K) :=
  (visList h (collC h t ε) (addrs t)).map (vdata h)

theorem same_visList {h h' : MdcHeap K} (hs : Same h h') (t : MdcNode) (ε : K) :
    collC h' t ε = collC h t ε ∧ visList h' (collC h' t ε) (addrs t) = visList h (collC h t ε) (addrs t) := by
  have h1 : collC h' t ε = collC h t ε := by
    funext a
    unfold collC
    rw [same_err hs]
  refine ⟨h1, ?_⟩
  rw [h1]
  unfold visList
  congr 1
  funext a
  unfold visible
  rw [same_par hs]

theorem same_vtxOf {h h' : MdcHeap K} (hs : Same h h') (t : MdcNode) (c : Cube) (ε : K) : vtxOf h' t c ε = vtxOf h t c ε := by
  funext x
  unfold vtxOf
  rw [(same_visList hs t ε).2, (same_visList hs t ε).1]
  congr 1
  unfold visOf VisC Anc
  rw [same_par hs]

theorem same_vtxData {h h' : MdcHeap K} (hs : Same h h') (t : MdcNode) (ε : K) : vtxData h' t ε = vtxData h t ε := by
  unfold vtxData
  rw [(same_visList hs t ε).2, same_vdata hs]

section
variable {h : MdcHeap K} {t : MdcNode} {c : Cube} (hg : MdcGood env g options h t c) (hin : CubeIn g.maxCoord c) (ε : K)
include hg hin

open Classical in
/-- Triangles for one visited edge. -/
noncomputable def visitQuad (g : Grid K) (V : CellCrossing → Nat) (v : Axis × IVec3 × (Fin 4 → MdcLeaf)) : List (Nat × Nat × Nat) :=
  if CrossingEdge g v.1 v.2.1 then
    octQuad (V (LEdge.seen ⟨v.1, v.2.1⟩ 0)) (V (LEdge.seen ⟨v.1, v.2.1⟩ 1)) (V (LEdge.seen ⟨v.1, v.2.1⟩ 2)) (V (LEdge.seen ⟨v.1, v.2.1⟩ 3))
      (solidAt g v.2.1)
  else []

theorem fold_visits : ∀ (vs : List (Axis × IVec3 × (Fin 4 → MdcLeaf))),
    (∀ v ∈ vs, ∀ i, (⟨Spec.edgeCorner v.1 v.2.1 1 i, 0⟩, v.2.2 i) ∈ (locate t c).leaves) → ∀ (mesh : Mesh K),
    mesh.vertices.length = (visList h (collC h t ε) (addrs t)).length →
    (vs.map fun v => (v.1, fun i => Oct.leaf (v.2.2 i))).foldlM (mdcCall (markH h (collC h t ε) (addrs t) (addrs t))) mesh =
      some ⟨mesh.vertices, mesh.indices ++ flatTri (vs.flatMap (visitQuad g (vtxOf h t c ε)))⟩ := by
  classical
  intro vs
  induction vs with
  | nil => intro _ mesh _; simp [flatTri]
  | cons v vs ih =>
    intro hl mesh hv
    obtain ⟨D, p, l⟩ := v
    have hl0 := hl (D, p, l) List.mem_cons_self
    have hl1 := fun v hv => hl v (List.mem_cons_of_mem _ hv)
    rw [List.map_cons, List.foldlM_cons]
    by_cases hc : CrossingEdge g D p
    · obtain ⟨A, hA, hB⟩ := call_pieces hg.tree hin hl0 hc
      have hi : ∀ i, xingAddr t c (LEdge.seen ⟨D, p⟩ i) = A i := fun i =>
        xing_unique hg.tree (xingAddr_spec hg.tree hin (xing_in hg.tree hin (hB i))) (hB i)
      rw [mdcCall_eq hg ε (fun i => (mtree_leaf hg.tree _ (hl0 i)).2.1) hA (fun i => xing_mem (hB i)) mesh hv]
      simp only [Option.bind_eq_bind, Option.bind_some]
      refine (ih hl1 _ (by exact hv)).trans ?_
      simp only [List.flatMap_cons, visitQuad, if_pos hc, vtxOf, hi, flatTri, List.flatMap_append, List.append_assoc]
    · rw [mdcCall_skip hg _ ((mdc_call_ok hg.tree hin hl0).2 hc)]
      simp only [Option.bind_eq_bind, Option.bind_some]
      rw [ih hl1 _ hv]
      simp only [List.flatMap_cons, visitQuad, if_neg hc, List.nil_append]

omit hin in
theorem visList_nodup : (visList h (collC h t ε) (addrs t)).Nodup := hg.nodup.filter _

/-- The vertices used are those above some leaf vertex. -/
theorem visList_used {r : Nat} (hr : r ∈ visList h (collC h t ε) (addrs t)) : ∃ x : CellCrossing, x.In g c ∧
    visOf h (collC h t ε) (xingAddr t c x) = r := by
  obtain ⟨h1, h2⟩ := List.mem_filter.1 hr
  obtain ⟨a, ha, hab⟩ := clustered_leaf hg.cl h1
  obtain ⟨x, hx⟩ := xing_of_addr hg.tree ha
  have hxin := xing_in hg.tree hin hx
  refine ⟨x, hxin, ?_⟩
  rw [xing_unique hg.tree (xingAddr_spec hg.tree hin hxin) hx]
  apply visOf_eq
  have hv := visible_iff.1 h2
  exact ⟨hab, hv.2⟩

theorem mesh_ok : ∃ mesh, (mdcTrav.cellProc t).foldlM (mdcCall (markH h (collC h t ε) (addrs t) (addrs t)))
      ⟨vtxData h t ε, []⟩ = some mesh ∧ mesh.vertices = vtxData h t ε ∧ MdcMesh g c (vtxOf h t c ε) mesh := by
  classical
  obtain ⟨visits, h1, h2, h3⟩ := mdc_visits hg.tree
  have hl : ∀ v ∈ visits, ∀ i, (⟨Spec.edgeCorner v.1 v.2.1 1 i, 0⟩, v.2.2 i) ∈ (locate t c).leaves := by
    rintro ⟨D, p, l⟩ hv
    exact (h3 D p l).1 hv
  have hlen : (vtxData h t ε).length = (visList h (collC h t ε) (addrs t)).length := by unfold vtxData; rw [List.length_map]
  refine ⟨_, by rw [h1]; exact fold_visits hg hin ε visits hl ⟨vtxData h t ε, []⟩ hlen, rfl, ?_⟩
  have hlt : ∀ x : CellCrossing, x.In g c → vtxOf h t c ε x < (vtxData h t ε).length := by
    intro x hx
    rw [hlen]
    exact List.idxOf_lt_length_of_mem (visOf_mem hg ε (xing_mem (xingAddr_spec hg.tree hin hx)))
  constructor
  · refine ⟨(visits.filter fun v => decide (CrossingEdge g v.1 v.2.1)).map fun v => ⟨v.1, v.2.1⟩, ?_, ?_, ?_⟩
    · have : ((visits.filter fun v => decide (CrossingEdge g v.1 v.2.1)).map fun v => (v.1, v.2.1)).Nodup :=
        h2.sublist (List.Sublist.map _ List.filter_sublist)
      have h5 := List.Nodup.map (f := fun q : Axis × IVec3 => (⟨q.1, q.2⟩ : LEdge)) (by
        rintro ⟨a, b⟩ ⟨a', b'⟩ e
        simp only [LEdge.mk.injEq] at e
        rw [e.1, e.2]) this
      rw [List.map_map] at h5
      exact h5
    · rintro ⟨D, p⟩
      rw [← visits_edges hg.tree h3 D p]
      simp only [List.mem_map, List.mem_filter, decide_eq_true_eq, LEdge.mk.injEq, Prod.mk.injEq]
      constructor
      · rintro ⟨v, ⟨hv, hc⟩, rfl, rfl⟩
        exact ⟨hc, v, hv, rfl, rfl⟩
      · rintro ⟨hc, v, hv, rfl, rfl⟩
        exact ⟨v, ⟨hv, hc⟩, rfl, rfl⟩
    · rw [List.nil_append, triangles_flatTri]
      clear h1 h2 h3 hl
      induction visits with
      | nil => rfl
      | cons v vs ih =>
        rw [List.flatMap_cons, ih]
        unfold visitQuad
        by_cases hc : CrossingEdge g v.1 v.2.1
        · rw [if_pos hc, List.filter_cons_of_pos (by simpa using hc), List.map_cons, List.flatMap_cons]
        · rw [if_neg hc, List.filter_cons_of_neg (by simpa using hc), List.nil_append]
  · rw [List.nil_append, triangles_flatTri]
    unfold flatTri
    rw [List.length_flatMap]
    generalize visits.flatMap (visitQuad g (vtxOf h t c ε)) = T
    induction T with
    | nil => rfl
    | cons a T ih => rw [List.map_cons, List.sum_cons, ih]; simp; omega
  · exact hlt
  · intro n hn
    rw [hlen] at hn
    obtain ⟨x, hx, e⟩ := visList_used hg hin ε (List.getElem_mem hn)
    refine ⟨x, hx, ?_⟩
    unfold vtxOf
    rw [e, (visList_nodup hg ε).idxOf_getElem]
  · intro x y hx hy hcell hs
    have := (xing_sheet hg.tree hin hg.lnodup (xingAddr_spec hg.tree hin hx) (xingAddr_spec hg.tree hin hy)).2 ⟨hcell, hs⟩
    unfold vtxOf
    rw [this]

end

/-- `contour` on a good octree. -/
theorem contour_ok {o : MdcOctree K} {c : Cube} (hg : MdcGood env g options o.heap o.root c) (hin : CubeIn g.maxCoord c) (ε : K) :
    ∃ mesh heap', o.contour ε = some (⟨mesh, o.globalPos, o.globalScale⟩, { o with heap := heap' }) ∧ Same o.heap heap' ∧
      mesh.vertices = vtxData o.heap o.root (ε / (o.globalScale * o.globalScale)) ∧
      MdcMesh g c (vtxOf o.heap o.root c (ε / (o.globalScale * o.globalScale))) mesh := by
  obtain ⟨mesh, h1, h2, h3⟩ := mesh_ok hg hin (ε / (o.globalScale * o.globalScale))
  refine ⟨mesh, markH o.heap (collC o.heap o.root (ε / (o.globalScale * o.globalScale))) (addrs o.root) (addrs o.root), ?_,
    markH_same _ _ _ _, h2, h3⟩
  unfold MdcOctree.contour
  rw [addVertices_spec hg.ok hg.cl hg.ordered hg.nodup hg.size]
  simp only [Option.bind_eq_bind, Option.bind_some]
  unfold vtxData at h1
  rw [h1]
  rfl

end Isomesh
