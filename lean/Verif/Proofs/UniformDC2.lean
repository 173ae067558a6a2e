import Verif.Proofs.UniformDC

/-! Helper lemmas for uniform dual contouring: generation of the vertices. -/

namespace Isomesh
open Spec

set_option linter.unusedSectionVars false
variable {K : Type} [Add K] [_root_.Sub K] [Mul K] [Div K] [Neg K] [Zero K] [One K] [OfNat K 2] [OfScientific K] [NatCast K] [IntCast K]
  [Fabs K] [Elem K] [LinearOrder K] [RoundedLaws K]

theorem sameOptions_refl {d : Nat} (q : Qef K d) : SameOptions q q := ⟨rfl, rfl, rfl, rfl⟩

theorem sameOptions_trans {d : Nat} {a b c : Qef K d} (h : SameOptions a b) (h' : SameOptions b c) : SameOptions a c :=
  ⟨h'.1.trans h.1, h'.2.1.trans h.2.1, h'.2.2.1.trans h.2.2.1, h'.2.2.2.trans h.2.2.2⟩

/-- `addPlane` always succeeds. -/
theorem addPlane_some {d M : Nat} {tiny : K} (hM : d + 1 < M) {q : Qef K d} (hq : q.usedRows ≤ M) (pt n : VecN K d) :
    ∃ q', q.addPlane M tiny pt n = some q' ∧ q'.usedRows ≤ M ∧ q'.pointsCount = u32 (q.pointsCount + 1) ∧
      SameOptions q q' := by
  obtain ⟨q1, h1, r1, p1, o1⟩ : ∃ q1, q.roomForPlane M tiny = some q1 ∧ q1.usedRows < M ∧
      q1.pointsCount = q.pointsCount ∧ SameOptions q q1 := by
    unfold Qef.roomForPlane
    by_cases hu : q.usedRows = M
    · rw [if_pos hu]
      obtain ⟨A, hA⟩ := compress_some (tiny := tiny) (by omega : d + 1 ≤ M) hq
      exact ⟨_, hA, hM, rfl, sameOptions_refl _⟩
    · rw [if_neg hu]
      exact ⟨q, rfl, by omega, rfl, sameOptions_refl _⟩
  unfold Qef.addPlane
  simp only [h1, Option.bind_eq_bind, Option.bind_some, writeRow_some r1]
  exact ⟨_, rfl, r1, by rw [← p1], o1⟩

/-- `solve` succeeds with a positive tolerance and at least one point. -/
theorem solve_some {d M : Nat} {tiny : K} (hM : d + 2 + 1 ≤ M) {q : Qef K (d + 2)} (hq : q.usedRows ≤ M)
    (hc : q.pointsCount ≠ 0) (hp : 0 < q.pinvTolerance) (lo hi : VecN K (d + 2)) :
    ∃ q' x, q.solve M tiny lo hi = some (q', x) ∧ q'.usedRows ≤ M ∧ SameOptions q q' := by
  rcases solve_cases (tiny := tiny) hM hq lo hi with ⟨-, h | h⟩ | ⟨A, f, x, h, -⟩
  · exact absurd h hc
  · exact absurd h (not_le.2 hp)
  · exact ⟨_, x, h, hM, sameOptions_refl _⟩

variable {env : DcEnv K}

theorem dcAddPlanes_eq (cell : Nat) (es : List (GridEdge K)) (rest : List (DcEntry K))
    (hrest : ∀ e ∈ rest.head?, e.cellIndex ≠ cell) (q : Qef K 3) (hq : q.usedRows ≤ qef3Rows)
    (hn : q.pointsCount + es.length < 4294967296) (avg : Vec3 K) :
    ∃ q', dcAddPlanes env cell (es.map (fun e => ⟨cell, e⟩) ++ rest) q avg =
        some (q', (es.map fun e => edgeNormal env.eps e.gradient).foldl Vec3.add avg, rest) ∧
      runOps qef3Rows 30 env.tiny q (es.map (planeOp env.eps)) = some q' ∧
      q'.usedRows ≤ qef3Rows ∧ q'.pointsCount = q.pointsCount + es.length ∧ SameOptions q q' := by
  induction es generalizing q avg with
  | nil =>
    refine ⟨q, ?_, rfl, hq, rfl, sameOptions_refl _⟩
    cases rest with
    | nil => rfl
    | cons e rest =>
      have := hrest e (by simp)
      simp [dcAddPlanes, this]
  | cons e es ih =>
    obtain ⟨q1, h1, r1, c1, o1⟩ := addPlane_some (tiny := env.tiny) (by simp [qef3Rows] : 3 + 1 < qef3Rows) hq
      e.surfacePoint.toVecN (edgeNormal env.eps e.gradient).toVecN
    simp only [List.length_cons] at hn
    rw [u32_of_lt (by omega)] at c1
    obtain ⟨q', h2, h3, h4, h5, h6⟩ := ih q1 r1 (by omega) (avg.add (edgeNormal env.eps e.gradient))
    refine ⟨q', ?_, ?_, h4, by simp only [List.length_cons]; omega, sameOptions_trans o1 h6⟩
    · simp only [List.map_cons, List.cons_append, dcAddPlanes, if_true, h1, Option.bind_eq_bind, Option.bind_some,
        List.foldl_cons]
      exact h2
    · simp only [List.map_cons, runOps, List.foldlM_cons, planeOp, QefOp.apply, h1, Option.bind_eq_bind, Option.bind_some]
      exact h3

/-- Materials of a cell of a filled grid. -/
theorem materialsOfCell_eq {K : Type} [Add K] [Sub K] [Mul K] [Div K] [Zero K] [IntCast K] [LinearOrder K] {g : Grid K} (h : Filled g)
    {P : IVec3} (hP : CellIn g.maxCoord P) :
    ∃ ms, g.materialsOfCell (g.vidx P) = some ms ∧ ms.length = 8 ∧
      (∀ m ∈ ms, ∃ c ∈ cellVertices P, g.at c = some m) ∧ (∀ c ∈ cellVertices P, ∃ m ∈ ms, g.at c = some m) ∧
      (cellVertices P).mapM g.at = some ms ∧ ∀ m, ms.count m = (cellVertices P).countP (fun c => decide (g.at c = some m)) := by
  obtain ⟨i, hi, -, -, hm⟩ := cell_vertices_wf h.wf P hP
  obtain ⟨-, rfl⟩ := Grid.pointToIndex_some h.wf hi
  rw [hm]
  have key : ∀ l : List IVec3, (∀ v ∈ l, ∃ m, g.at v = some m) → ∃ ms, l.mapM g.at = some ms ∧ ms.length = l.length ∧
      (∀ m ∈ ms, ∃ c ∈ l, g.at c = some m) ∧ (∀ c ∈ l, ∃ m ∈ ms, g.at c = some m) ∧
      l.mapM g.at = some ms ∧ ∀ m, ms.count m = l.countP (fun c => decide (g.at c = some m)) := by
    intro l
    induction l with
    | nil => intro _; exact ⟨[], rfl, rfl, by simp, by simp, rfl, by simp⟩
    | cons a l ih =>
      intro hl
      obtain ⟨m, hm⟩ := hl a List.mem_cons_self
      obtain ⟨ms, hms, h1, h2, h3, -, h5⟩ := ih (fun v hv => hl v (List.mem_cons_of_mem _ hv))
      have hmap : (a :: l).mapM g.at = some (m :: ms) := by rw [List.mapM_cons, hm, hms]; rfl
      refine ⟨m :: ms, hmap, by simp [h1], ?_, ?_, hmap, ?_⟩
      · intro m' hm'
        rcases List.mem_cons.1 hm' with rfl | hm'
        · exact ⟨a, List.mem_cons_self, hm⟩
        · obtain ⟨c, hc, hc'⟩ := h2 m' hm'
          exact ⟨c, List.mem_cons_of_mem _ hc, hc'⟩
      · intro c hc
        rcases List.mem_cons.1 hc with rfl | hc
        · exact ⟨m, List.mem_cons_self, hm⟩
        · obtain ⟨m', hm', hc'⟩ := h3 c hc
          exact ⟨m', List.mem_cons_of_mem _ hm', hc'⟩
      · intro m'
        rw [List.count_cons, List.countP_cons, h5, hm]
        by_cases hc : m = m' <;> simp [hc]
  exact key _ (fun v hv => h.written v (hP v hv))

/-- A crossing edge of the cell has a solid corner. -/
theorem crossing_solid {K : Type} [Add K] [Sub K] [Mul K] [Div K] [Zero K] [IntCast K] [LinearOrder K] {g : Grid K} {P : IVec3}
    (hP : CrossingCell g P) : ∃ c ∈ cellVertices P, solidAt g c = true := by
  obtain ⟨-, D, p, ⟨-, hc⟩, he⟩ := hP
  have h1 := he p (by cases D <;> simp [edgeVertices])
  have h2 := he (edgeEnd D p) (by cases D <;> simp [edgeVertices, edgeEnd])
  cases hs : solidAt g p with
  | true => exact ⟨p, h1, hs⟩
  | false => exact ⟨_, h2, by rw [hs] at hc; simpa using hc.symm⟩

theorem cell_material {K : Type} [Add K] [Sub K] [Mul K] [Div K] [Zero K] [IntCast K] [LinearOrder K] {g : Grid K} (h : Filled g)
    {P : IVec3} (hP : CrossingCell g P) :
    ∃ ms, g.materialsOfCell (g.vidx P) = some ms ∧ (FilterFast.new.addMany ms).select ≠ .Empty ∧
      (∃ c ∈ cellVertices P, g.at c = some (FilterFast.new.addMany ms).select) ∧
      (∀ m, m ≠ .Empty → (cellVertices P).countP (fun c => solidAt g c) <
        2 * (cellVertices P).countP (fun c => decide (g.at c = some m)) → (FilterFast.new.addMany ms).select = m) ∧
      (cellVertices P).mapM g.at = some ms := by
  obtain ⟨ms, h1, h2, h3, h4, h5, h6⟩ := materialsOfCell_eq h hP.1
  have hi := FastInv.new.addMany ms (by simp [h2])
  have hne : (FilterFast.new.addMany ms).select ≠ .Empty := by
    intro e
    obtain ⟨c, hc, hs⟩ := crossing_solid hP
    obtain ⟨m, hm, hm'⟩ := h4 c hc
    unfold solidAt at hs
    rw [hm'] at hs
    have := (hi.empty e).2
    rw [List.nil_append, List.filter_eq_nil_iff] at this
    exact this m hm (by simpa using hs)
  refine ⟨ms, h1, hne, ?_, ?_, h5⟩
  · have := (hi.nonempty hne).2
    rw [List.nil_append] at this
    exact h3 _ this
  · intro m hm hcnt
    apply fast_select_of_margin hi hm
    rw [List.nil_append]
    unfold margin
    have e1 : (ms.filter (· ≠ .Empty)).length = (cellVertices P).countP (fun c => solidAt g c) := by
      have a := h6 .Empty
      have b : (ms.filter (· ≠ .Empty)).length + ms.count .Empty = ms.length := by
        rw [List.count, ← List.countP_eq_length_filter, List.length_eq_countP_add_countP (l := ms) (· ≠ .Empty)]
        congr 1
        apply List.countP_congr
        intro x _
        simp
      have c : (cellVertices P).countP (fun c => solidAt g c) + (cellVertices P).countP (fun c => decide (g.at c = some .Empty)) =
          (cellVertices P).length := by
        rw [List.length_eq_countP_add_countP (l := cellVertices P) (fun c => solidAt g c)]
        congr 1
        apply List.countP_congr
        intro x hx
        obtain ⟨m, -, hm⟩ := h4 x hx
        unfold solidAt
        rw [hm]
        simp
      have d : (cellVertices P).length = 8 := rfl
      omega
    have e2 : (ms.filter (· ≠ .Empty)).count m = (cellVertices P).countP (fun c => decide (g.at c = some m)) := by
      rw [List.count_filter (by simpa using hm), h6]
    rw [e1, e2]
    push_cast
    omega

theorem toVecN_ofVecN (x : VecN K 3) : (Vec3.ofVecN x).toVecN = x := by
  unfold Vec3.ofVecN Vec3.toVecN
  ext i; fin_cases i <;> rfl

theorem cell_bounds (P : IVec3) : P.toReal.toVecN = (cellLo P : VecN K 3) ∧
    (⟨P.toReal.x + 1, P.toReal.y + 1, P.toReal.z + 1⟩ : Vec3 K).toVecN = cellHi P := ⟨rfl, rfl⟩

theorem cellEdges_spec {g : Grid K} {P : IVec3} {e : GridEdge K} :
    e ∈ cellEdges g P ↔ e ∈ edgeList g ∧ EdgeOfCell P e.axis e.lesser := by
  unfold cellEdges
  rw [List.mem_filter, decide_eq_true_eq, around_iff]

theorem cellEdges_nodup {g : Grid K} (h : Filled g) (P : IVec3) : (cellEdges g P).Nodup := by
  unfold cellEdges
  apply List.Nodup.filter
  exact (edgeList_nodup h).imp fun h e => h (by rw [e])

theorem crossing_edges_ne {g : Grid K} (h : Filled g) {P : IVec3} (hP : CrossingCell g P) : cellEdges g P ≠ [] := by
  obtain ⟨-, D, p, hc, he⟩ := hP
  obtain ⟨e, he', rfl⟩ := (h.edge_iff D p).2 hc
  have hax := h.edge_axis _ _ he'
  apply List.ne_nil_of_mem (a := e)
  rw [cellEdges_spec]
  exact ⟨(mem_edgeList h).2 (by rw [hax]; exact he'), by rw [hax]; exact he⟩

/-- One iteration of the outer loop. -/
theorem dcFinishCell_eq {g : Grid K} (h : Filled g) {P : IVec3} (hP : CrossingCell g P) {es : List (GridEdge K)}
    (hes : es.Perm (cellEdges g P)) {s : DcState K} {options q1 : Qef K 3} (hopt : SameOptions options s.q)
    (hpinv : 0 < options.pinvTolerance) (hrun : runOps qef3Rows 30 env.tiny s.q (.reset :: es.map (planeOp env.eps)) = some q1)
    (h1 : q1.usedRows ≤ qef3Rows) (h2 : q1.pointsCount ≠ 0) (h3 : SameOptions s.q q1)
    (hm : s.mesh.vertices.length < 4294967295) (hids : s.ids.length = g.dataSize) :
    ∃ s' v, dcFinishCell env g (g.vidx P) q1 ((es.map fun e => edgeNormal env.eps e.gradient).foldl Vec3.add ⟨0, 0, 0⟩) s =
        some s' ∧ s'.mesh = ⟨s.mesh.vertices ++ [v], s.mesh.indices⟩ ∧
      s'.ids = s.ids.set (g.vidx P) s.mesh.vertices.length ∧ s'.q.usedRows ≤ qef3Rows ∧ SameOptions options s'.q ∧
      DualVertex env g options P v := by
  have hin := cell_inCube hP.1
  obtain ⟨q2, x, hs, hr, ho⟩ := solve_some (tiny := env.tiny) (by simp [qef3Rows] : 1 + 2 + 1 ≤ qef3Rows) h1 h2
    (by rw [h3.1, hopt.1]; exact hpinv) (cellLo P) (cellHi P)
  obtain ⟨ms, hms, hne, hcor, hmaj, hvt⟩ := cell_material h hP
  have hlt := Grid.vidx_lt' h.wf hin
  unfold dcFinishCell
  rw [Grid.indexToPoint_vidx h.wf hin]
  simp only [Option.bind_eq_bind, Option.bind_some, cell_bounds]
  rw [hs]
  simp only [Option.bind_some, hms, Mesh.addVertex]
  rw [if_pos (by omega)]
  simp only [Option.bind_some, write, hids, if_pos hlt, List.length_append, List.length_singleton]
  rw [u32_of_lt (by omega)]
  have hbox := C38_box _ _ _ _ _ _ hs (by intro i; fin_cases i <;> exact RoundedLaws.cast_succ _)
  refine ⟨_, _, rfl, rfl, by simp, hr, sameOptions_trans hopt (sameOptions_trans h3 ho), ⟨?_, ?_, ?_, hne, hcor, hmaj, ⟨ms, hvt, rfl⟩, ?_⟩⟩
  · simpa [cellLo, cellHi, Vec3.ofVecN] using hbox 0
  · simpa [cellLo, cellHi, Vec3.ofVecN] using hbox 1
  · simpa [cellLo, cellHi, Vec3.ofVecN] using hbox 2
  · refine ⟨es, s.q, q1, q2, x, hes.nodup_iff.2 (cellEdges_nodup h P), ?_, hopt, hrun, hs, toVecN_ofVecN x, rfl⟩
    intro e
    rw [hes.mem_iff, cellEdges_spec]

/-- The whole vertex generation. -/
theorem dcDualVertices_eq {g : Grid K} (h : Filled g) {options : Qef K 3} (hpinv : 0 < options.pinvTolerance)
    (cs : List IVec3) (hcs : cs.Pairwise (fun a b => g.vidx a < g.vidx b)) (hcr : ∀ P ∈ cs, CrossingCell g P)
    (grp : IVec3 → List (GridEdge K)) (hgrp : ∀ P ∈ cs, (grp P).Perm (cellEdges g P)) (s : DcState K)
    (hopt : SameOptions options s.q) (hids : s.ids.length = g.dataSize)
    (hm : s.mesh.vertices.length + cs.length < 4294967295) :
    ∃ s' vs, dcDualVertices env g (cs.flatMap fun P => (grp P).map fun e => ⟨g.vidx P, e⟩) s = some s' ∧
      s'.mesh = ⟨s.mesh.vertices ++ vs, s.mesh.indices⟩ ∧ List.Forall₂ (DualVertex env g options) cs vs ∧
      s'.ids.length = g.dataSize ∧ SameOptions options s'.q ∧
      (∀ (k : Nat) (P : IVec3), cs[k]? = some P → s'.ids[g.vidx P]? = some (s.mesh.vertices.length + k)) ∧
      (∀ i, (∀ P ∈ cs, g.vidx P ≠ i) → s'.ids[i]? = s.ids[i]?) := by
  induction cs generalizing s with
  | nil =>
    rw [List.flatMap_nil, dcDualVertices]
    exact ⟨s, [], rfl, by simp, .nil, hids, hopt, by simp, fun _ _ => rfl⟩
  | cons P cs ih =>
    have hP := hcr P List.mem_cons_self
    have hgP := hgrp P List.mem_cons_self
    obtain ⟨c1, c2⟩ := List.pairwise_cons.1 hcs
    have hne : grp P ≠ [] := by
      intro e; rw [e] at hgP; exact crossing_edges_ne h hP hgP.symm.eq_nil
    have hlen : (grp P).length < 4294967295 := by
      rw [hgP.length_eq]
      exact lt_of_le_of_lt (List.length_filter_le _ _) (edgeList_length h)
    rw [List.flatMap_cons]
    set rest := cs.flatMap fun P => (grp P).map fun e => (⟨g.vidx P, e⟩ : DcEntry K) with hrest
    have hhead : ∀ e ∈ rest.head?, e.cellIndex ≠ g.vidx P := by
      intro e he
      have := List.mem_of_mem_head? he
      rw [hrest, List.mem_flatMap] at this
      obtain ⟨Q, hQ, he⟩ := this
      obtain ⟨e', -, rfl⟩ := List.mem_map.1 he
      have := c1 Q hQ
      show g.vidx Q ≠ g.vidx P
      omega
    obtain ⟨q1, a1, a2, a3, a4, a5⟩ := dcAddPlanes_eq (env := env) (g.vidx P) (grp P) rest hhead s.q.reset
      (by show 0 ≤ _; omega) (by show 0 + _ < _; omega) ⟨0, 0, 0⟩
    have hrun : runOps qef3Rows 30 env.tiny s.q (.reset :: (grp P).map (planeOp env.eps)) = some q1 := by
      simp only [runOps, List.foldlM_cons, QefOp.apply, Option.bind_eq_bind, Option.bind_some]
      exact a2
    have hcnt : q1.pointsCount ≠ 0 := by
      rw [a4]
      have := List.length_pos_of_ne_nil hne
      show 0 + _ ≠ 0
      omega
    obtain ⟨s1, v, b1, b2, b3, b4, b5, b6⟩ := dcFinishCell_eq (env := env) h hP hgP hopt hpinv hrun a3 hcnt a5
      (by simp at hm; omega) hids
    obtain ⟨s', vs, d1, d2, d3, d4, d5, d6, d7⟩ := ih c2 (fun Q hQ => hcr Q (List.mem_cons_of_mem _ hQ))
      (fun Q hQ => hgrp Q (List.mem_cons_of_mem _ hQ)) s1 b5 (by rw [b3, List.length_set]; exact hids)
      (by rw [b2]; simp at hm ⊢; omega)
    refine ⟨s', v :: vs, ?_, ?_, .cons b6 d3, d4, d5, ?_, ?_⟩
    · obtain ⟨e0, es0, he0⟩ := List.exists_cons_of_ne_nil hne
      rw [he0, List.map_cons, List.cons_append, dcDualVertices]
      have : (⟨g.vidx P, e0⟩ : DcEntry K) :: (List.map (fun e => (⟨g.vidx P, e⟩ : DcEntry K)) es0 ++ rest) =
          (grp P).map (fun e => ⟨g.vidx P, e⟩) ++ rest := by rw [he0]; rfl
      simp only [this, a1, Option.bind_eq_bind, Option.bind_some, b1]
      exact d1
    · rw [d2, b2]; simp
    · intro k Q hk
      cases k with
      | zero =>
        simp at hk; subst hk
        rw [d7 _ (fun Q hQ => by have := c1 Q hQ; omega), b3, List.getElem?_set_self (by
          rw [hids]; exact Grid.vidx_lt' h.wf (cell_inCube hP.1))]
        rfl
      | succ k =>
        simp at hk
        rw [d6 k Q hk, b2]
        simp; omega
    · intro i hi
      rw [d7 i (fun Q hQ => hi Q (List.mem_cons_of_mem _ hQ)), b3, List.getElem?_set_ne (hi P List.mem_cons_self)]

/-! ### Quads -/

theorem nodup_idxOf_ne {α : Type} [DecidableEq α] {l : List α} {a b : α} (ha : a ∈ l) (hab : a ≠ b) :
    l.idxOf a ≠ l.idxOf b := fun e => hab (List.idxOf_inj ha |>.1 e)

theorem getElem?_idxOf' {α : Type} [DecidableEq α] {l : List α} {a : α} (ha : a ∈ l) : l[l.idxOf a]? = some a := by
  have := List.idxOf_lt_length_of_mem ha
  rw [List.getElem?_eq_getElem this, List.getElem_idxOf]

theorem addTriangle_eq {K : Type} {m : Mesh K} {a b c : Nat} (ha : a < m.vertices.length) (hb : b < m.vertices.length)
    (hc : c < m.vertices.length) (hab : a ≠ b) (hbc : b ≠ c) (hac : a ≠ c) :
    m.addTriangle a b c = some ⟨m.vertices, m.indices ++ [a, b, c]⟩ := by
  unfold Mesh.addTriangle
  rw [if_pos ⟨ha, hb, hc⟩, if_neg (by tauto)]

theorem dcEmitQuad_eq {m : Mesh K} {v0 v1 v2 v3 : Nat} (hl : ∀ v ∈ [v0, v1, v2, v3], v < m.vertices.length)
    (hn : [v0, v1, v2, v3].Nodup) (b : Bool) :
    dcEmitQuad m v0 v1 v2 v3 (!b) = some ⟨m.vertices, m.indices ++ flatTri (quadTriangles v0 v1 v2 v3 b)⟩ := by
  simp only [List.mem_cons, List.not_mem_nil, or_false, forall_eq_or_imp, forall_eq] at hl
  obtain ⟨l0, l1, l2, l3⟩ := hl
  simp only [List.nodup_cons, List.mem_cons, List.not_mem_nil, or_false, not_or, List.nodup_nil, and_true] at hn
  obtain ⟨⟨n01, n02, n03⟩, ⟨n12, n13⟩, n23, -⟩ := hn
  unfold dcEmitQuad
  cases b with
  | true =>
    simp only [Bool.not_true, Bool.not_false, if_true]
    rw [addTriangle_eq l0 l1 l3 n01 n13 n03]
    simp only [Option.bind_eq_bind, Option.bind_some]
    rw [addTriangle_eq (m := ⟨m.vertices, m.indices ++ [v0, v1, v3]⟩) l1 l2 l3 n12 n23 n13]
    simp [quadTriangles, flatTri]
  | false =>
    simp only [Bool.not_true, Bool.not_false, Bool.false_eq_true, if_false]
    rw [addTriangle_eq l0 l3 l1 n03 (Ne.symm n13) n01]
    simp only [Option.bind_eq_bind, Option.bind_some]
    rw [addTriangle_eq (m := ⟨m.vertices, m.indices ++ [v0, v3, v1]⟩) l1 l3 l2 n13 (Ne.symm n23) n12]
    simp [quadTriangles, flatTri]

/-- All four cells around an interior crossing edge are crossing cells. -/
theorem interior_crossing {K : Type} [Add K] [Sub K] [Mul K] [Div K] [Zero K] [IntCast K] [LinearOrder K] {g : Grid K} {D : Axis}
    {p : IVec3} (hc : CrossingEdge g D p) {c : IVec3} (hm : c ∈ cellsAroundEdge D p) (hin : CellIn g.maxCoord c) :
    CrossingCell g c := ⟨hin, D, p, hc, around_iff.1 hm⟩

theorem around_list (D : Axis) (p : IVec3) : ∃ a b c d, cellsAroundEdge D p = [a, b, c, d] := by
  cases D <;> exact ⟨_, _, _, _, rfl⟩

theorem dcQuadStep_eq {g : Grid K} (h : Filled g) {cells : List IVec3} (hcells : CellList g cells) {ids : List Nat}
    (hids : ∀ (k : Nat) (P : IVec3), cells[k]? = some P → ids[g.vidx P]? = some k) {D : Axis} {e : GridEdge K}
    (he : e ∈ g.edges D) (m : Mesh K) (hm : m.vertices.length = cells.length) (hb : cells.length < 4294967295) :
    dcQuadStep g D ids m e = some ⟨m.vertices, m.indices ++ flatTri (edgeQuad g.maxCoord cells e)⟩ := by
  have hcr := h.crossing he
  obtain ⟨c0, c1, c2, c3, e4, hf⟩ := adjacentCells_wf h.wf D e.lesser hcr.1
  have hax := h.edge_axis D e he
  unfold dcQuadStep GridEdge.lesserEndpoint
  rw [e4]
  simp only [Option.bind_eq_bind, Option.bind_some]
  unfold edgeQuad
  rw [hax]
  obtain ⟨P0, P1, P2, P3, hP⟩ := around_list D e.lesser
  have hnd := around_nodup D e.lesser
  rw [hP] at hf hnd ⊢
  obtain ⟨f0, f1, f2, f3, -⟩ : _ ∧ _ ∧ _ ∧ _ ∧ True := by
    cases hf with | cons f0 hf => cases hf with | cons f1 hf => cases hf with | cons f2 hf => cases hf with | cons f3 _ =>
      exact ⟨f0, f1, f2, f3, trivial⟩
  by_cases hall : ∀ c ∈ [P0, P1, P2, P3], CellIn g.maxCoord c
  · have hmem : ∀ c ∈ [P0, P1, P2, P3], c ∈ cells := fun c hc =>
      (hcells.mem c).2 (interior_crossing hcr (by rw [hP]; exact hc) (hall c hc))
    have hb' : ([P0, P1, P2, P3].all fun c => decide (∀ v ∈ cellVertices c, InCube g.maxCoord v)) = true := by
      simpa [CellIn] using hall
    rw [hb', if_pos rfl]
    simp only [List.map_cons, List.map_nil]
    simp only [List.mem_cons, List.not_mem_nil, or_false, forall_eq_or_imp, forall_eq] at hall hmem
    obtain ⟨a0, a1, a2, a3⟩ := hall
    obtain ⟨m0, m1, m2, m3⟩ := hmem
    have key : ∀ {i : Nat} {c : IVec3}, g.pointToIndex c = some i → c ∈ cells → ids[i]? = some (cells.idxOf c) := by
      intro i c hi hc
      obtain ⟨-, rfl⟩ := Grid.pointToIndex_some h.wf hi
      exact hids _ _ (getElem?_idxOf' hc)
    have k0 := f0.1 a0; have k1 := f1.1 a1; have k2 := f2.1 a2; have k3 := f3.1 a3
    rw [if_neg (by rintro (q | q | q | q); exacts [k0.2 q, k1.2 q, k2.2 q, k3.2 q])]
    unfold dcQuadOf
    rw [key k0.1 m0, key k1.1 m1, key k2.1 m2, key k3.1 m3]
    simp only [Option.bind_eq_bind, Option.bind_some]
    have l0 := List.idxOf_lt_length_of_mem m0
    have l1 := List.idxOf_lt_length_of_mem m1
    have l2 := List.idxOf_lt_length_of_mem m2
    have l3 := List.idxOf_lt_length_of_mem m3
    rw [if_pos (by unfold kBadIndex; omega)]
    apply dcEmitQuad_eq
    · simp only [List.mem_cons, List.not_mem_nil, or_false, forall_eq_or_imp, forall_eq]
      omega
    · simp only [List.nodup_cons, List.mem_cons, List.not_mem_nil, or_false, not_or, List.nodup_nil, and_true] at hnd ⊢
      obtain ⟨⟨n01, n02, n03⟩, ⟨n12, n13⟩, n23, -⟩ := hnd
      exact ⟨⟨nodup_idxOf_ne m0 n01, nodup_idxOf_ne m0 n02, nodup_idxOf_ne m0 n03⟩,
        ⟨nodup_idxOf_ne m1 n12, nodup_idxOf_ne m1 n13⟩, nodup_idxOf_ne m2 n23, not_false⟩
  · have hb' : ([P0, P1, P2, P3].all fun c => decide (∀ v ∈ cellVertices c, InCube g.maxCoord v)) = false := by
      rw [← Bool.not_eq_true]
      intro hh
      exact hall (by simpa [CellIn] using hh)
    rw [hb', if_pos]
    · simp [flatTri]
    · simp only [List.mem_cons, List.not_mem_nil, or_false, forall_eq_or_imp, forall_eq, not_and_or] at hall
      rcases hall with q | q | q | q
      exacts [Or.inl (f0.2 q), Or.inr (Or.inl (f1.2 q)), Or.inr (Or.inr (Or.inl (f2.2 q))),
        Or.inr (Or.inr (Or.inr (f3.2 q)))]

theorem flatTri_append (a b : List (Nat × Nat × Nat)) : flatTri (a ++ b) = flatTri a ++ flatTri b := by
  simp [flatTri]

theorem dcQuads_eq {g : Grid K} (h : Filled g) {cells : List IVec3} (hcells : CellList g cells) {ids : List Nat}
    (hids : ∀ (k : Nat) (P : IVec3), cells[k]? = some P → ids[g.vidx P]? = some k) (D : Axis)
    (m : Mesh K) (hm : m.vertices.length = cells.length) (hb : cells.length < 4294967295) :
    dcQuads g D ids m = some ⟨m.vertices, m.indices ++ flatTri ((g.edges D).flatMap (edgeQuad g.maxCoord cells))⟩ := by
  unfold dcQuads
  have key : ∀ (es : List (GridEdge K)) (m : Mesh K), m.vertices.length = cells.length → (∀ e ∈ es, e ∈ g.edges D) →
      es.foldlM (dcQuadStep g D ids) m =
        some ⟨m.vertices, m.indices ++ flatTri (es.flatMap (edgeQuad g.maxCoord cells))⟩ := by
    intro es
    induction es with
    | nil => intro m _ _; simp [flatTri]
    | cons e es ih =>
      intro m hm he
      rw [List.foldlM_cons, dcQuadStep_eq h hcells hids (he e List.mem_cons_self) m hm hb]
      simp only [Option.bind_eq_bind, Option.bind_some]
      rw [ih ⟨m.vertices, m.indices ++ flatTri (edgeQuad g.maxCoord cells e)⟩ hm (fun e' h' => he e' (List.mem_cons_of_mem _ h'))]
      simp [flatTri_append]
  exact key _ _ hm (fun _ h => h)

/-! ### The whole algorithm -/

theorem cells_length {g : Grid K} (h : Filled g) {cells : List IVec3} (hcells : CellList g cells) :
    cells.length < 4294967295 := by
  rw [CellList.unique hcells (mcCells_cellList h)]
  have : (mcCells g).length ≤ g.dataSize := by
    unfold mcCells
    refine le_trans (List.length_filter_le _ _) (le_trans (List.length_filterMap_le _ _) (by simp))
  have hd : g.dataSize ≤ 1025 * 1025 * 1025 := by
    rw [Grid.dataSize, dataSizeOf_eq h.wf.le]
    have := h.wf.le
    have h1 : g.size + 1 ≤ 1025 := by omega
    exact Nat.mul_le_mul (Nat.mul_le_mul h1 h1) h1
  omega

theorem dc_result {g : Grid K} (h : Filled g) (hsort : IsSort env.srt) {solver : Qef K 3}
    (hpinv : 0 < solver.pinvTolerance) {cells : List IVec3} (hcells : CellList g cells) :
    ∃ q vs, dualContouring env g solver = some (q,
        ⟨⟨vs, flatTri ((edgeList g).flatMap (edgeQuad g.maxCoord cells))⟩, g.globalPos, g.step⟩) ∧
      List.Forall₂ (DualVertex env g solver) cells vs ∧ SameOptions solver q := by
  have hlen := cells_length h hcells
  have hvidx : cells.Pairwise (fun a b => g.vidx a < g.vidx b) := by
    refine List.Pairwise.imp_of_mem ?_ hcells.sorted
    intro a b ha hb hab
    exact (Grid.vidx_lt_iff h.wf (cell_inCube ((hcells.mem a).1 ha).1) (cell_inCube ((hcells.mem b).1 hb).1)).2 hab
  unfold dualContouring
  simp only [dcCollect_eq h, Option.bind_eq_bind, Option.bind_some, List.nil_append]
  have hall : (g.edges .X).flatMap (dcEntries g) ++ (g.edges .Y).flatMap (dcEntries g) ++
      (g.edges .Z).flatMap (dcEntries g) = (edgeList g).flatMap (dcEntries g) := by
    simp [edgeList]
  rw [hall]
  set l := (edgeList g).flatMap (dcEntries g) with hl
  obtain ⟨hperm, hsrt⟩ := hsort l
  have hk : ∀ e ∈ env.srt l, ∃ c ∈ cells, g.vidx c = e.cellIndex := by
    intro x hx
    have hx := hperm.mem_iff.1 hx
    rw [hl, List.mem_flatMap] at hx
    obtain ⟨e, he, hx⟩ := hx
    unfold dcEntries at hx
    obtain ⟨c, hc, rfl⟩ := List.mem_map.1 hx
    obtain ⟨hc1, hc2⟩ := List.mem_filter.1 hc
    have := h.crossing ((mem_edgeList h).1 he)
    exact ⟨c, (hcells.mem c).2 (interior_crossing this hc1 (by simpa using hc2)), rfl⟩
  have hgroups := sorted_groups g.vidx cells hvidx (env.srt l) hsrt hk
  set grp : IVec3 → List (GridEdge K) := fun P =>
    ((env.srt l).filter (fun x => decide (x.cellIndex = g.vidx P))).map DcEntry.edge with hgrp
  have hgrp_eq : ∀ P, (env.srt l).filter (fun x => decide (x.cellIndex = g.vidx P)) =
      (grp P).map (fun e => (⟨g.vidx P, e⟩ : DcEntry K)) := by
    intro P
    rw [hgrp]
    dsimp only
    rw [List.map_map]
    symm
    apply (List.map_congr_left _).trans (List.map_id _)
    intro x hx
    have := (List.mem_filter.1 hx).2
    simp only [decide_eq_true_eq] at this
    simp only [Function.comp, ← this, id]
  have hgrp_perm : ∀ P ∈ cells, (grp P).Perm (cellEdges g P) := by
    intro P hP
    have h1 := hperm.filter (fun x => decide (x.cellIndex = g.vidx P))
    rw [hl, entries_filter h ((hcells.mem P).1 hP).1] at h1
    have h2 := h1.map DcEntry.edge
    rw [List.map_map] at h2
    refine h2.trans ?_
    have : (DcEntry.edge ∘ fun e => (⟨g.vidx P, e⟩ : DcEntry K)) = id := rfl
    rw [this, List.map_id]
  have hgroups' : env.srt l = cells.flatMap fun P => (grp P).map fun e => (⟨g.vidx P, e⟩ : DcEntry K) := by
    refine hgroups.trans (List.flatMap_congr fun P _ => hgrp_eq P)
  rw [hgroups']
  obtain ⟨s', vs, d1, d2, d3, d4, d5, d6, -⟩ := dcDualVertices_eq (env := env) h hpinv cells hvidx
    (fun P hP => (hcells.mem P).1 hP) grp hgrp_perm ⟨solver, Mesh.new, List.replicate g.dataSize kBadIndex⟩
    (sameOptions_refl _) (by simp) (by simpa [Mesh.new] using hlen)
  rw [d1]
  simp only [Option.bind_some, d2]
  have hids : ∀ (k : Nat) (P : IVec3), cells[k]? = some P → s'.ids[g.vidx P]? = some k := by
    intro k P hk
    rw [d6 k P hk]
    simp [Mesh.new]
  have hvl : vs.length = cells.length := d3.length_eq.symm
  simp only [Mesh.new, List.nil_append]
  rw [dcQuads_eq h hcells hids .X _ hvl hlen]
  simp only [Option.bind_some]
  rw [dcQuads_eq h hcells hids .Y _ hvl hlen]
  simp only [Option.bind_some]
  rw [dcQuads_eq h hcells hids .Z _ hvl hlen]
  refine ⟨_, vs, ?_, d3, d5⟩
  simp [edgeList, flatTri_append]

end Isomesh
