import Verif.Proofs.DcLeaf

/-! The tree built by `DC_Octree::build` satisfies `TreeOK`. -/

namespace Isomesh
open Spec

set_option linter.unusedSectionVars false
variable {K : Type} [Add K] [_root_.Sub K] [Mul K] [Div K] [Neg K] [Zero K] [One K] [OfNat K 2] [OfScientific K] [NatCast K] [IntCast K]
  [Fabs K] [Elem K] [LinearOrder K] [RoundedLaws K]

variable {env : DcEnv K}

/-- Corner materials of a cell, in octree order. -/
theorem oct_cell_corners {g : Grid K} (h : Filled g) {lo : IVec3} (hin : CellIn g.maxCoord lo) :
    ∃ idx ms, g.pointToIndex lo = some idx ∧ g.materialsOfCell idx = some ms ∧ ms.length = 8 ∧
      ∀ i : Fin 8, g.at (octCorner lo 1 i) = some (ms.getD i .Empty) := by
  obtain ⟨idx, hi, -, -, hm⟩ := cell_vertices_wf h.wf lo hin
  have key : ∀ l : List IVec3, (∀ v ∈ l, ∃ m, g.at v = some m) → ∃ ms, l.mapM g.at = some ms ∧ ms.length = l.length ∧
      ∀ (i : Nat) (v : IVec3), l[i]? = some v → g.at v = some (ms.getD i .Empty) := by
    intro l
    induction l with
    | nil => intro _; exact ⟨[], rfl, by simp⟩
    | cons a l ih =>
      intro hl
      obtain ⟨m, hm⟩ := hl a List.mem_cons_self
      obtain ⟨ms, hms, h1, h2⟩ := ih (fun v hv => hl v (List.mem_cons_of_mem _ hv))
      refine ⟨m :: ms, ?_, by simp [h1], ?_⟩
      · rw [List.mapM_cons, hm, hms]; rfl
      · intro i v hv
        cases i with
        | zero => simp only [List.getElem?_cons_zero, Option.some.injEq] at hv; subst hv; simpa using hm
        | succ i => simp only [List.getElem?_cons_succ] at hv; simpa using h2 i v hv
  obtain ⟨ms, h1, h2, h3⟩ := key _ (fun v hv => h.written v (hin v hv))
  refine ⟨idx, ms, hi, by rw [hm, h1], by simpa [cellVertices] using h2, fun i => h3 i _ ?_⟩
  obtain ⟨x, y, z⟩ := lo
  fin_cases i <;> simp [octCorner, octOff, cellVertices, shift]

theorem cubeIn_cell {h : Int} {lo : IVec3} (hc : CubeIn h ⟨lo, 0⟩) : CellIn h lo := by
  intro v hv
  apply hc
  rw [cubeClosed_iff]
  obtain ⟨x, y, z⟩ := lo
  intro a
  simp only [cellVertices, shift, List.mem_cons, List.not_mem_nil, or_false] at hv
  rcases hv with rfl | rfl | rfl | rfl | rfl | rfl | rfl | rfl <;> cases a <;> simp [IVec3.get, Cube.side]

theorem cubeIn_octant {h : Int} {o : IVec3} {k : Nat} (hc : CubeIn h ⟨o, k + 1⟩) (i : Fin 8) :
    CubeIn h ⟨octCorner o (2 ^ k) i, k⟩ := fun p hp => hc p (closed_sub (octant_sub i) hp)

/-- A cell with two corners on different sides has a crossing edge. -/
theorem cell_mixed {c : Fin 8 → Bool} (h : ∃ i j, c i ≠ c j) : ∃ D i, c (dcEdgeEnds D i).1 ≠ c (dcEdgeEnds D i).2 := by
  by_contra hh
  simp only [not_exists, not_not] at hh
  have x := hh .X
  have y := hh .Y
  have z := hh .Z
  have x0 : c 0 = c 2 := x 0
  have x1 : c 1 = c 3 := x 1
  have x2 : c 4 = c 6 := x 2
  have x3 : c 5 = c 7 := x 3
  have y0 : c 0 = c 4 := y 0
  have y1 : c 1 = c 5 := y 1
  have z0 : c 0 = c 1 := z 0
  have all : ∀ i, c i = c 0 := by
    intro i
    fin_cases i
    · rfl
    · exact z0.symm
    · exact x0.symm
    · exact x1.symm.trans z0.symm
    · exact y0.symm
    · exact y1.symm.trans z0.symm
    · exact x2.symm.trans y0.symm
    · exact x3.symm.trans (y1.symm.trans z0.symm)
  obtain ⟨i, j, hij⟩ := h
  exact hij ((all i).trans (all j).symm)

/-- `buildLeaf`. -/
theorem dcBuildLeaf_eq {g : Grid K} (h : Filled g) {lo : IVec3} (hin : CellIn g.maxCoord lo) (depth : Nat) (q : Qef K 3) :
    ∃ (corners : Fin 8 → Material) (es : List (GridEdge K)) (q1 : Qef K 3) (ms : List Material),
      (∀ i, g.at (octCorner lo 1 i) = some (corners i)) ∧ es.Nodup ∧ es.length ≤ 12 ∧
      (∀ e, e ∈ es ↔ e ∈ edgeList g ∧ EdgeOfCell lo e.axis e.lesser) ∧
      (es ≠ [] ↔ Hetero g ⟨lo, 0⟩) ∧
      runOps qef3Rows 30 env.tiny q (.reset :: es.map (planeOp env.eps)) = some q1 ∧ q1.usedRows ≤ qef3Rows ∧
      q1.pointsCount = es.length ∧ SameOptions q q1 ∧ g.materialsOfCell (g.vidx lo) = some ms ∧ ms = List.ofFn corners ∧
      dcBuildLeaf env g depth lo q =
        if es ≠ [] then do
          let qv ← dcSolveBox env q1 lo 0
          let qs ← qv.1.state qef3Rows 30 env.tiny
          some (qs.1, .leaf ⟨depth, corners, some ⟨Vec3.ofVecN qv.2,
            env.normalize ((es.map fun e => edgeNormal env.eps e.gradient).foldl Vec3.add ⟨0, 0, 0⟩), qs.2⟩, none⟩)
        else some (q1, .leaf ⟨depth, corners, none, none⟩) := by
  obtain ⟨idx, ms, h1, h2, h3, h4⟩ := oct_cell_corners h hin
  obtain ⟨es, s, a1, a2, a3, a4, a5, a6, a7, a8, a9, a10⟩ := dcLeafSlots_eq (env := env) h hin h4 dcSlots dcSlots_nodup
    ⟨q.reset, ⟨0, 0, 0⟩, false⟩ (by simp [Qef.reset]) (by simp [Qef.reset, dcSlots])
  have hmem : ∀ e, e ∈ es ↔ e ∈ edgeList g ∧ EdgeOfCell lo e.axis e.lesser := by
    intro e
    rw [a4 e]
    refine and_congr_right fun _ => ?_
    rw [slot_iff]
    constructor
    · rintro ⟨⟨D, i⟩, -, b1, b2⟩; exact ⟨i, by rw [b1]; exact b2⟩
    · rintro ⟨i, hi⟩; exact ⟨(e.axis, i), mem_dcSlots _, rfl, hi⟩
  have hhet : es ≠ [] ↔ Hetero g ⟨lo, 0⟩ := by
    have hside : (⟨lo, 0⟩ : Cube).side = 1 := rfl
    constructor
    · intro hne
      obtain ⟨e, he⟩ := List.exists_mem_of_ne_nil es hne
      obtain ⟨b1, b2⟩ := (hmem e).1 he
      have hcr := h.crossing ((mem_edgeList h).1 b1)
      obtain ⟨i, hi⟩ := slot_iff.1 b2
      rw [hi] at hcr
      have := hcr.2
      rw [show edgeEnd e.axis (dcSlotPos lo (e.axis, i)) = _ from slot_end lo (e.axis, i)] at this
      exact ⟨_, _, this⟩
    · rintro hh
      obtain ⟨D, i, hx⟩ := cell_mixed (c := fun i => solidAt g (octCorner lo 1 i)) hh
      have hcr : CrossingEdge g D (dcSlotPos lo (D, i)) := by
        refine ⟨slot_inCube hin (D, i), ?_⟩
        rw [show edgeEnd D (dcSlotPos lo (D, i)) = _ from slot_end lo (D, i)]
        exact hx
      obtain ⟨e, he, hl⟩ := (h.edge_iff D _).2 hcr
      apply List.ne_nil_of_mem (a := e)
      rw [hmem]
      have hax := h.edge_axis D e he
      refine ⟨(mem_edgeList h).2 (by rw [hax]; exact he), ?_⟩
      rw [hax, hl]
      exact slot_iff.2 ⟨i, rfl⟩
  refine ⟨fun i => ms.getD i .Empty, es, s.q, ms, h4, a3, by simpa [dcSlots] using a2, hmem, hhet, ?_, a8, ?_, ?_, ?_, ?_, ?_⟩
  · simp only [runOps, List.foldlM_cons, QefOp.apply, Option.bind_eq_bind, Option.bind_some]
    exact a5
  · rw [a9]; simp [Qef.reset]
  · exact a10
  · obtain ⟨-, rfl⟩ := Grid.pointToIndex_some h.wf h1
    exact h2
  · apply List.ext_getElem (by simp [h3])
    intro n hn1 hn2
    rw [List.getElem_ofFn]
    exact (List.getD_eq_getElem _ _ hn1).symm
  · unfold dcBuildLeaf
    simp only [h1, h2, Option.bind_eq_bind, Option.bind_some, dcLeafEdges_slots, a1]
    have hh : s.has = true ↔ es ≠ [] := by rw [a7]; cases es <;> simp
    by_cases hes : es = []
    · rw [if_neg (by rw [hh]; simpa using hes), if_neg (by simpa using hes)]
    · rw [if_pos (hh.2 hes), if_pos hes, a6]

theorem solveBox_closed {q q' : Qef K 3} {lo : IVec3} {k : Nat} {x : VecN K 3} (h : dcSolveBox env q lo k = some (q', x)) :
    Cube.ClosedR ⟨lo, k⟩ (Vec3.ofVecN x) := by
  have := C38_box env.tiny q q' _ _ x h (by
    intro i
    have h2 : (0 : Int) ≤ 2 ^ k := by positivity
    fin_cases i <;> exact RoundedLaws.cast_mono _ _ (Int.le_add_of_nonneg_right h2))
  exact ⟨this 0, this 1, this 2⟩

theorem unit_closed {lo p : IVec3} (h : Cube.Closed ⟨lo, 0⟩ p) : ∃ i, p = octCorner lo 1 i := by
  rw [cubeClosed_iff] at h
  simp only [Cube.side, pow_zero] at h
  have hg : ∀ a, p.get a - lo.get a ∈ [(0 : Int), 1] := by
    intro a
    have := h a
    simp only [List.mem_cons, List.not_mem_nil, or_false]
    omega
  obtain ⟨i, hx, hy, hz⟩ := octOff_surjective _ (hg .X) _ (hg .Y) _ (hg .Z)
  refine ⟨i, ivec_ext fun a => ?_⟩
  rw [octCorner_get]
  cases a <;> simp only [IVec3.get] at *
  · rw [hx]; ring
  · rw [hy]; ring
  · rw [hz]; ring

theorem dcBuildLeaf_ok {g : Grid K} (h : Filled g) {lo : IVec3} (hin : CellIn g.maxCoord lo) {depth : Nat} {q q' : Qef K 3}
    {n : DcNode K} (hb : dcBuildLeaf env g depth lo q = some (q', n)) : TreeOK g n ⟨lo, 0⟩ depth := by
  obtain ⟨corners, es, q1, ms, h1, -, -, -, h5, -, -, -, -, -, -, h10⟩ := dcBuildLeaf_eq (env := env) h hin depth q
  rw [h10] at hb
  have hcor : ∀ i, g.at (octCorner (⟨lo, 0⟩ : Cube).lo (⟨lo, 0⟩ : Cube).side i) = some (corners i) := h1
  have hhom : ∀ l : DcLeaf K, l.corners = corners → l.homogeneous = true → ∀ p, Cube.Closed ⟨lo, 0⟩ p → solidAt g p = solidAt g lo := by
    intro l hl hh p hp
    have := (homogeneous_iff (g := g) (c := ⟨lo, 0⟩) (l := l) (by rw [hl]; exact hcor)).1 hh
    obtain ⟨i, rfl⟩ := unit_closed hp
    by_contra hne
    refine this ⟨i, 0, ?_⟩
    rw [octCorner_zero]
    exact hne
  split at hb
  · rename_i hne
    simp only [Option.bind_eq_bind, Option.bind_eq_some_iff] at hb
    obtain ⟨qv, hv, qs, -, hb⟩ := hb
    cases hb
    refine ⟨⟨hcor, hhom _ rfl, fun _ => ⟨_, rfl, solveBox_closed hv⟩⟩, rfl⟩
  · rename_i hne
    cases hb
    refine ⟨⟨hcor, hhom _ rfl, fun hf => ?_⟩, rfl⟩
    exact absurd ((homogeneous_iff (g := g) (c := ⟨lo, 0⟩) hcor).2 (fun hh => hne (h5.2 hh))) (hetero_false.1 hf)

/-- Corner `j` of octant `i` as a lattice point. -/
def gridPt (lo : IVec3) (k : Nat) (p : IVec3) : IVec3 := ⟨lo.x + 2 ^ k * p.x, lo.y + 2 ^ k * p.y, lo.z + 2 ^ k * p.z⟩

theorem double_octCorner (lo : IVec3) (k : Nat) (i : Fin 8) :
    gridPt lo k ((cornerOff i).plus (cornerOff i)) = octCorner lo (2 ^ (k + 1)) i := by
  rw [cornerOff_eq, two_pow_succ']
  simp only [gridPt, IVec3.plus, octCorner, IVec3.mk.injEq]
  refine ⟨by ring, by ring, by ring⟩

section
variable {g : Grid K} {lo : IVec3} {k : Nat} {l : Fin 8 → DcLeaf K}

theorem child_corners (hl : ∀ i, LeafOK g ⟨octCorner lo (2 ^ k) i, k⟩ (l i)) (i j : Fin 8) :
    g.at (gridPt lo k ((cornerOff i).plus (cornerOff j))) = some ((l i).corners j) := by
  have := (hl i).corners j
  simp only [Cube.side] at this
  rwa [octant_corner] at this

theorem parent_corners (hl : ∀ i, LeafOK g ⟨octCorner lo (2 ^ k) i, k⟩ (l i)) (i : Fin 8) :
    g.at (octCorner lo (2 ^ (k + 1)) i) = some ((l i).corners i) := by
  rw [← double_octCorner]; exact child_corners hl i i

/-- All octants homogeneous: so is the cube (they share the centre). -/
theorem all_homog (hl : ∀ i, LeafOK g ⟨octCorner lo (2 ^ k) i, k⟩ (l i)) (hh : ∀ i, (l i).homogeneous = true) :
    ∀ p, Cube.Closed ⟨lo, k + 1⟩ p → solidAt g p = solidAt g (octCorner lo (2 ^ k) 7) := by
  intro p hp
  obtain ⟨i, hi⟩ := closed_octant hp
  rw [(hl i).homog (hh i) p hi]
  have hc : Cube.Closed ⟨octCorner lo (2 ^ k) i, k⟩ (octCorner lo (2 ^ k) 7) := by
    rw [cubeClosed_iff]
    intro a
    have := two_pow_pos' k
    simp only [octCorner_get, Cube.side]
    have h7 : (octOff 7).get a = 1 := by cases a <;> rfl
    rw [h7]
    rcases octOff_01 i a with e | e <;> rw [e] <;> omega
  rw [(hl i).homog (hh i) _ hc]

theorem homog_collapse (hl : ∀ i, LeafOK g ⟨octCorner lo (2 ^ k) i, k⟩ (l i)) (hh : ∀ i, (l i).homogeneous = true) (depth : Nat) :
    LeafOK g ⟨lo, k + 1⟩ ⟨depth, fun i => (l i).corners i, none, none⟩ := by
  have hc := parent_corners hl
  have hp := all_homog hl hh
  refine ⟨hc, fun _ p hp' => (hp p hp').trans (hp lo (lo_closed _)).symm, fun hf => ?_⟩
  refine absurd ?_ (hetero_false.1 hf)
  refine (homogeneous_iff (g := g) (c := ⟨lo, k + 1⟩) (l := ⟨depth, fun i => (l i).corners i, none, none⟩) hc).2 ?_
  rintro ⟨i, j, hij⟩
  exact hij ((hp _ (corner_closed _ i)).trans (hp _ (corner_closed _ j)).symm)

/-- After a positive topology test a homogeneous result is only possible if all octants were homogeneous. -/
theorem topo_collapse (hl : ∀ i, LeafOK g ⟨octCorner lo (2 ^ k) i, k⟩ (l i)) (ht : dcTopoSafety (dcCubeMats l) = true)
    (hn : ¬ ∀ i, (l i).homogeneous = true) : Hetero g ⟨lo, k + 1⟩ := by
  by_contra hh
  apply hn
  have hm : ∀ i j, dcCubeMats l ((cornerOff i).plus (cornerOff j)) = (l i).corners j := by
    intro i j
    have hM : ∀ i j, (l i).corners j = matAt g (gridPt lo k ((cornerOff i).plus (cornerOff j))) :=
      fun i j => (matAt_of (child_corners hl i j)).symm
    rw [dcCubeMats_eq (M := fun p => matAt g (gridPt lo k p)) hM, ← hM]
  have hcor : ∀ i, ((l i).corners i = .Empty ↔ (l 0).corners 0 = .Empty) := by
    intro i
    unfold Hetero at hh
    simp only [not_exists, not_not] at hh
    have := hh i 0
    simp only [Cube.side] at this
    rw [solid_of (parent_corners hl i), solid_of (parent_corners hl 0)] at this
    by_cases a : (l i).corners i = .Empty <;> by_cases b : (l 0).corners 0 = .Empty <;> simp [a, b] at this ⊢
  have := topo_uniform ht ((l 0).corners 0 = .Empty) (fun i => by rw [hm]; exact hcor i)
  intro i
  unfold DcLeaf.homogeneous
  rw [Bool.or_eq_true, decide_eq_true_eq, decide_eq_true_eq]
  by_cases b : (l 0).corners 0 = .Empty
  · left; intro j; have := this i j; rw [hm] at this; exact this.2 b
  · right; intro j h; have := this i j; rw [hm] at this; exact b (this.1 h)

end

theorem dcTryCollapse_ok {g : Grid K} {epsilon : K} {simplify : Bool} {depth : Nat} {lo : IVec3} {k : Nat} {ch : Fin 8 → DcNode K}
    (hch : ∀ i, TreeOK g (ch i) ⟨octCorner lo (2 ^ k) i, k⟩ (depth + 1)) {q q' : Qef K 3} {n : DcNode K}
    (h : dcTryCollapse env epsilon simplify depth lo (k + 1) ch q = some (q', n)) : TreeOK g n ⟨lo, k + 1⟩ depth := by
  have hinner : TreeOK g (.inner depth ch) ⟨lo, k + 1⟩ depth := ⟨Nat.succ_pos k, rfl, hch⟩
  unfold dcTryCollapse at h
  split at h
  · cases h; exact hinner
  rename_i l hl
  have hl' := dcLeafChildren_some hl
  have hok : ∀ i, LeafOK g ⟨octCorner lo (2 ^ k) i, k⟩ (l i) := by
    intro i
    have := hch i
    rw [hl' i] at this
    exact this.1
  split at h
  · rename_i hh
    cases h
    exact ⟨homog_collapse hok hh depth, rfl⟩
  rename_i hn
  split at h
  swap
  · cases h; exact hinner
  split at h
  swap
  · cases h; exact hinner
  rename_i ht
  have het := topo_collapse hok ht hn
  simp only [dcFit, Option.bind_eq_bind, Option.bind_eq_some_iff] at h
  obtain ⟨qa, -, qv, hv, err, -, h⟩ := h
  split at h
  · cases h; exact hinner
  simp only [Option.bind_eq_some_iff] at h
  obtain ⟨qs, -, h⟩ := h
  cases h
  have hc := parent_corners hok
  refine ⟨⟨hc, fun hh => ?_, fun _ => ⟨_, rfl, solveBox_closed hv⟩⟩, rfl⟩
  exact absurd het ((homogeneous_iff (g := g) (c := ⟨lo, k + 1⟩)
    (l := ⟨depth, fun i => (l i).corners i, some ⟨Vec3.ofVecN qv.2, env.normalize qa.2, qs.2⟩, none⟩) hc).1 hh)

/-- Partial correctness of `buildNode`. -/
theorem dcBuildNode_ok {g : Grid K} (hg : Filled g) {epsilon : K} {simplify : Bool} : ∀ (k depth : Nat) (lo : IVec3)
    (q q' : Qef K 3) (n : DcNode K), CubeIn g.maxCoord ⟨lo, k⟩ → dcBuildNode env g epsilon simplify k depth lo q = some (q', n) →
    TreeOK g n ⟨lo, k⟩ depth := by
  intro k
  induction k with
  | zero => intro depth lo q q' n hin h; exact dcBuildLeaf_ok hg (cubeIn_cell hin) h
  | succ k ih =>
    intro depth lo q q' n hin h
    rw [dcBuildNode] at h
    split at h
    · cases h
    rename_i q1 ch hch
    obtain ⟨-, hch⟩ := threadM_spec (fun _ => True) 8 _ (fun _ _ _ _ _ _ => trivial) trivial hch
    refine dcTryCollapse_ok (fun i => ?_) h
    obtain ⟨t, t', -, hi⟩ := hch i
    rw [childCorner_eq] at hi
    exact ih _ _ _ _ _ (cubeIn_octant hin i) hi

end Isomesh
