import Verif.Props.DcCollapse
import Verif.Proofs.Push

/-! C23: `DC_Octree` without simplification. -/

namespace Isomesh
open Spec

set_option linter.unusedSectionVars false
variable {K : Type} [Add K] [_root_.Sub K] [Mul K] [Div K] [Neg K] [Zero K] [One K] [OfNat K 2] [OfScientific K] [NatCast K] [IntCast K]
  [Fabs K] [Elem K] [LinearOrder K] [RoundedLaws K]

/-- What is known about the leaves when nothing is simplified. -/
def FineLeaf (env : DcEnv K) (g : Grid K) (options : Qef K 3) (x : Cube × DcLeaf K) : Prop :=
  x.2.homogeneous = false → x.1.k = 0 ∧ ∃ d, x.2.dual = some d ∧
    DualVertex env g options x.1.lo ⟨d.vertex, d.normal, (FilterFast.new.addMany (List.ofFn x.2.corners)).select⟩

theorem crossingCell_iff {g : Grid K} {P : IVec3} (hin : CellIn g.maxCoord P) : CrossingCell g P ↔ Hetero g ⟨P, 0⟩ := by
  constructor
  · rintro ⟨-, D, p, hc, he⟩
    obtain ⟨i, rfl⟩ := slot_iff.1 he
    have := hc.2
    rw [show edgeEnd D (dcSlotPos P (D, i)) = _ from slot_end P (D, i)] at this
    exact ⟨_, _, this⟩
  · intro hh
    obtain ⟨D, i, hx⟩ := cell_mixed (c := fun i => solidAt g (octCorner P 1 i)) hh
    refine ⟨hin, D, dcSlotPos P (D, i), ⟨slot_inCube hin (D, i), ?_⟩, slot_iff.2 ⟨i, rfl⟩⟩
    rw [show edgeEnd D (dcSlotPos P (D, i)) = _ from slot_end P (D, i)]
    exact hx

theorem cell_succ {g : Grid K} (h : Filled g) {P : IVec3} (hin : CellIn g.maxCoord P) : ((P.x + 1 : Int) : K) = (P.x : K) + 1 ∧
    ((P.y + 1 : Int) : K) = (P.y : K) + 1 ∧ ((P.z + 1 : Int) : K) = (P.z : K) + 1 := by
  have hm : g.maxCoord * 2 ≤ 1024 := by
    have e := h.wf.half_eq
    have l := h.wf.le
    unfold Grid.maxCoord
    omega
  obtain ⟨⟨h1, h2⟩, ⟨h3, h4⟩, h5, h6⟩ := cell_inCube hin
  refine ⟨RoundedLaws.cast_add_one _ (abs_lt.2 ⟨?_, ?_⟩), RoundedLaws.cast_add_one _ (abs_lt.2 ⟨?_, ?_⟩),
    RoundedLaws.cast_add_one _ (abs_lt.2 ⟨?_, ?_⟩)⟩ <;> omega

theorem dcBuildLeaf_fine {env : DcEnv K} {g : Grid K} (h : Filled g) {lo : IVec3} (hin : CellIn g.maxCoord lo) {depth : Nat}
    {q q' : Qef K 3} {n : DcNode K} (hb : dcBuildLeaf env g depth lo q = some (q', n)) {options : Qef K 3} (ho : SameOptions options q) :
    ∀ x ∈ (locate n ⟨lo, 0⟩).leaves, FineLeaf env g options x := by
  obtain ⟨corners, es, q1, ms, h1, h2, h3, h4, h5, h6, h7, h8, h9, h11, h12, h10⟩ := dcBuildLeaf_eq (env := env) h hin depth q
  rw [h10] at hb
  split at hb
  · rename_i hne
    simp only [Option.bind_eq_bind, Option.bind_eq_some_iff] at hb
    obtain ⟨qv, hv, qs, -, hb⟩ := hb
    cases hb
    intro x hx hf
    simp only [locate, Oct.leaves, List.mem_singleton] at hx
    subst hx
    refine ⟨rfl, _, rfl, ?_⟩
    have hcl := solveBox_closed hv
    obtain ⟨c1, c2, c3⟩ := hcl
    obtain ⟨s1, s2, s3⟩ := cell_succ (K := K) h hin
    simp only [pow_zero, s1, s2, s3] at c1 c2 c3
    have hcc : CrossingCell g lo := (crossingCell_iff hin).2 (h5.1 hne)
    obtain ⟨ms', m1, m2, m3, m4, m5⟩ := cell_material h hcc
    rw [h11] at m1
    cases m1
    rw [h12] at m2 m3 m4 m5
    refine ⟨c1, c2, c3, m2, m3, m4, ⟨_, m5, rfl⟩, es, q, q1, qv.1, qv.2, h2, h4, ho, h6, ?_, toVecN_ofVecN _, rfl⟩
    unfold dcSolveBox at hv
    rw [(upper_eq lo 0).1, (upper_eq lo 0).2] at hv
    simp only [pow_zero, s1, s2, s3] at hv
    exact hv
  · rename_i hne
    cases hb
    intro x hx hf
    simp only [locate, Oct.leaves, List.mem_singleton] at hx
    subst hx
    have := (homogeneous_iff (g := g) (c := ⟨lo, 0⟩) (l := ⟨depth, corners, none, none⟩) h1).2 (fun hh => hne (h5.2 hh))
    rw [this] at hf
    cases hf

theorem dcBuildNode_fine {env : DcEnv K} {g : Grid K} (hg : Filled g) {epsilon : K} {options : Qef K 3} : ∀ (k depth : Nat) (lo : IVec3)
    (q q' : Qef K 3) (n : DcNode K), CubeIn g.maxCoord ⟨lo, k⟩ → SameOptions options q →
    dcBuildNode env g epsilon false k depth lo q = some (q', n) → ∀ x ∈ (locate n ⟨lo, k⟩).leaves, FineLeaf env g options x := by
  intro k
  induction k with
  | zero => intro depth lo q q' n hin ho h; exact dcBuildLeaf_fine hg (cubeIn_cell hin) h ho
  | succ k ih =>
    intro depth lo q q' n hin ho h
    have hok := dcBuildNode_ok hg _ _ _ _ _ _ hin h
    rw [dcBuildNode] at h
    split at h
    · cases h
    rename_i q1 ch hch
    obtain ⟨-, hch⟩ := threadM_spec (fun q1 => SameOptions options q1) 8 _ (fun i s s' a hs hb => by
      rw [childCorner_eq] at hb
      exact sameOptions_trans hs (dcBuildNode_same hg _ _ _ _ _ _ (cubeIn_octant hin i) hb)) ho hch
    have hinner : ∀ x ∈ (locate (Oct.inner depth ch : DcNode K) ⟨lo, k + 1⟩).leaves, FineLeaf env g options x := by
      intro x hx
      simp only [locate, Oct.leaves] at hx
      obtain ⟨i, -, hx⟩ := List.mem_flatMap.1 hx
      obtain ⟨t, t', ht, hi⟩ := hch i
      rw [childCorner_eq] at hi
      exact ih _ _ _ _ _ (cubeIn_octant hin i) ht hi x hx
    unfold dcTryCollapse at h
    split at h
    · cases h; exact hinner
    rename_i l hl
    split at h
    · rename_i hh
      cases h
      intro x hx hf
      simp only [locate, Oct.leaves, List.mem_singleton] at hx
      subst hx
      obtain ⟨d, hd, -⟩ := hok.1.dual hf
      cases hd
    · simp only [Bool.false_eq_true, if_false] at h
      cases h
      exact hinner

theorem edgeOff_inj (D : Axis) : ∀ i i', ((edgeOff D i).x = (edgeOff D i').x ∧ (edgeOff D i).y = (edgeOff D i').y ∧
    (edgeOff D i).z = (edgeOff D i').z) → i = i' := by
  cases D <;> decide

theorem edgeCorner_inj (D : Axis) (p : IVec3) (i i' : Fin 4) (h : Spec.edgeCorner D p 1 i = Spec.edgeCorner D p 1 i') : i = i' := by
  apply edgeOff_inj D
  simp only [Spec.edgeCorner, IVec3.mk.injEq] at h
  omega

theorem segEnd_one (D : Axis) (p : IVec3) : segEnd D p 1 = edgeEnd D p := by cases D <;> rfl

theorem unit_of_sub {a : Cube} {P : IVec3} (h : a.Sub ⟨P, 0⟩) : a = ⟨P, 0⟩ :=
  (cube_of_sub h (Nat.zero_le _)).symm

/-- C23.  Without simplification `build` and `contour` complete on every filled grid, and
* the mesh has exactly one vertex for each crossing cell of the octree's cube, and it is the dual vertex of this cell: the
  same kind of point, normal and material as in dual contouring on the whole grid;
* the triangles are exactly two for each crossing edge that has all four cells around it in the cube, joining the
  vertices of these cells, wound according to the solid end of the edge. -/
theorem C23_unsimplified {env : DcEnv K} {g : Grid K} (hg : Filled g) (o : DcOctree K) {solver : Qef K 3} (epsilon : K)
    (hin : CubeIn g.maxCoord (rootCube o.level)) (hp : 0 < solver.pinvTolerance) :
    ∃ (q' : Qef K 3) (o' o'' : DcOctree K) (r : PlacedMesh K) (cells : List Cube) (edges : List (Axis × IVec3)),
      o.build env g solver epsilon false = some (q', o') ∧ o'.contour = some (r, o'') ∧
      cells.Nodup ∧ (∀ c, c ∈ cells ↔ ∃ P, c = ⟨P, 0⟩ ∧ CrossingCell g P ∧ (rootCube o.level).Has P) ∧
      List.Forall₂ (fun c v => DualVertex env g solver c.lo v) cells r.mesh.vertices ∧
      edges.Nodup ∧ (∀ D p, (D, p) ∈ edges ↔ CrossingEdge g D p ∧ ∀ P ∈ cellsAroundEdge D p, (rootCube o.level).Has P) ∧
      (∀ D p, (D, p) ∈ edges → ∀ P ∈ cellsAroundEdge D p, (⟨P, 0⟩ : Cube) ∈ cells) ∧
      triangles r.mesh.indices = edges.flatMap fun e => unitQuad g cells e.1 e.2 := by
  obtain ⟨q', o', r, o'', hb, -, hc⟩ := C22_completes (env := env) hg o epsilon (simplify := false) hin hp (Or.inl rfl)
  have hin' := hin
  obtain ⟨ht, -⟩ := build_ok hg hin hb
  have hfine : ∀ x ∈ (locate o'.root (rootCube o.level)).leaves, FineLeaf env g solver x := by
    rw [← rootCube_eq] at hin' ⊢
    unfold DcOctree.build at hb
    split at hb
    · cases hb
    rename_i q root hn
    cases hb
    exact dcBuildNode_fine hg _ _ _ _ _ _ hin' (sameOptions_refl _) hn
  have hk : (rootCube o.level).k ≤ 10 := by rw [rootCube_k]; exact level_le hg hin
  obtain ⟨vs, o1, visits, a1, a2, a3, a4, a5, a6, -⟩ := contour_eq ht hk
  rw [a1] at hc
  cases hc
  have hpl := placed_locate o'.root (rootCube o.level) (treeOK_height ht)
  have hleaf := treeOK_leaf ht
  have hsub : ∀ x ∈ (locate o'.root (rootCube o.level)).leaves, Cube.Sub x.1 (rootCube o.level) := fun x hx => leaf_sub hpl x hx
  have hhet : ∀ x ∈ (locate o'.root (rootCube o.level)).leaves, x.2.homogeneous = false ↔ Hetero g x.1 := by
    intro x hx
    rw [hetero_false, homogeneous_iff (hleaf x hx).1.corners, not_not]
  have hunit : ∀ c ∈ (leafCubes o'.root (rootCube o.level)).filter (fun c => decide (Hetero g c)), c.k = 0 := by
    intro c hc
    obtain ⟨hc, hh⟩ := List.mem_filter.1 hc
    obtain ⟨x, hx, rfl⟩ := List.mem_map.1 hc
    exact (hfine x hx ((hhet x hx).2 (of_decide_eq_true hh))).1
  have hCellIn : ∀ P, (rootCube o.level).Has P → CellIn g.maxCoord P := by
    intro P hP
    apply cubeIn_cell
    intro p hp
    apply hin
    rw [cubeHas_iff] at hP
    rw [cubeClosed_iff] at hp ⊢
    intro a
    have := hP a
    have := hp a
    simp only [Cube.side, pow_zero] at *
    omega
  have hmem : ∀ c, c ∈ (leafCubes o'.root (rootCube o.level)).filter (fun c => decide (Hetero g c)) ↔
      ∃ P, c = ⟨P, 0⟩ ∧ CrossingCell g P ∧ (rootCube o.level).Has P := by
    intro c
    constructor
    · intro hc
      have hk0 := hunit c hc
      obtain ⟨hc, hh⟩ := List.mem_filter.1 hc
      obtain ⟨x, hx, rfl⟩ := List.mem_map.1 hc
      obtain ⟨⟨P, k⟩, l⟩ := x
      simp only at hk0 hh
      subst hk0
      have hP : (rootCube o.level).Has P := by
        have := hsub _ hx
        apply cubeSub_has this
        rw [cubeHas_iff]; intro a; simp [Cube.side]
      exact ⟨P, rfl, (crossingCell_iff (hCellIn P hP)).2 (of_decide_eq_true hh), hP⟩
    · rintro ⟨P, rfl, hcc, hP⟩
      obtain ⟨x, hx, hxP⟩ := leaf_exists hpl P hP
      have hh := (crossingCell_iff (hCellIn P hP)).1 hcc
      -- the leaf is crossed, hence a unit cell
      have hxh : x.2.homogeneous = false := by
        rw [hetero_false]
        intro hho
        obtain ⟨i, j, hij⟩ := hh
        have hcl : ∀ i, x.1.Closed (octCorner P 1 i) := by
          intro i
          have := corner_closed ⟨P, 0⟩ i
          apply closed_sub ?_ this
          rw [cubeSub_iff]
          rw [cubeHas_iff] at hxP
          intro a
          have := hxP a
          simp only [Cube.side, pow_zero] at *
          omega
        exact hij (((hleaf x hx).1.homog hho _ (hcl i)).trans ((hleaf x hx).1.homog hho _ (hcl j)).symm)
      have hk0 := (hfine x hx hxh).1
      obtain ⟨⟨lo, k⟩, l⟩ := x
      simp only at hk0
      subst hk0
      have : lo = P := by
        rw [cubeHas_iff] at hxP
        apply ivec_ext
        intro a
        have := hxP a
        simp only [Cube.side, pow_zero] at this
        omega
      subst this
      exact List.mem_filter.2 ⟨List.mem_map.2 ⟨_, hx, rfl⟩, decide_eq_true hh⟩
  set cells := (leafCubes o'.root (rootCube o.level)).filter fun c => decide (Hetero g c) with hcells
  have hnd : cells.Nodup := (leafCubes_nodup hpl).filter _
  -- a crossing visit is a unit edge
  have hvis : ∀ D p j q, (D, p, j, q) ∈ visits → solidAt g p ≠ solidAt g (segEnd D p (2 ^ j)) →
      j = 0 ∧ ∀ i, q i = ⟨Spec.edgeCorner D p 1 i, 0⟩ := by
    intro D p j q hv hne
    have hm := a6 D p j q hv hne
    have hmin := (a3 D p j q).1 hv
    have key : ∀ i, (⟨Spec.edgeCorner D p (2 ^ j) i, j⟩ : Cube) = q i := by
      intro i
      have h0 := hunit _ (hm i)
      have hs := hmin.contains i
      revert h0 hs
      generalize q i = c
      obtain ⟨P, k⟩ := c
      intro h0 hs
      have h0' : k = 0 := h0
      subst h0'
      exact unit_of_sub hs
    have hj : j = 0 := by
      have h1 : j = (q 0).k := congrArg Cube.k (key 0)
      rw [hunit _ (hm 0)] at h1
      exact h1
    subst hj
    exact ⟨rfl, fun i => by rw [← key i]; norm_num⟩
  let cross : Axis × IVec3 × Nat × (Fin 4 → Cube) → Bool := fun v => decide (solidAt g v.2.1 ≠ solidAt g (segEnd v.1 v.2.1 (2 ^ v.2.2.1)))
  refine ⟨q', o', o'', _, cells, (visits.filter cross).map fun v => (v.1, v.2.1), hb, a1, hnd, hmem, ?_, ?_, ?_, ?_, ?_⟩
  · -- vertices
    have e1 : crossedLeaves o'.root.leaves = ((locate o'.root (rootCube o.level)).leaves.filter fun x => !x.2.homogeneous).map (·.2) := by
      rw [← leaves_locate o'.root (rootCube o.level), crossedLeaves, List.filter_map]; rfl
    have e2 : cells = ((locate o'.root (rootCube o.level)).leaves.filter fun x => !x.2.homogeneous).map (·.1) := by
      rw [hcells, leafCubes, List.filter_map]
      congr 1
      apply List.filter_congr
      intro x hx
      have := hhet x hx
      by_cases b : Hetero g x.1
      · simp [this.2 b, b]
      · have : x.2.homogeneous = true := by
          by_contra hcon
          exact b (this.1 (by simpa using hcon))
        simp [this, b]
    rw [e1, List.forall₂_map_left_iff] at a4
    rw [e2, List.forall₂_map_left_iff]
    have a5 : List.Forall₂ (fun x v => x ∈ (locate o'.root (rootCube o.level)).leaves.filter (fun x => !x.2.homogeneous) ∧ LeafVertex x.2 v)
        ((locate o'.root (rootCube o.level)).leaves.filter fun x => !x.2.homogeneous) vs := by
      have := List.forall₂_iff_get.1 a4
      exact List.forall₂_iff_get.2 ⟨this.1, fun i h1 h2 => ⟨List.get_mem _ _, this.2 i h1 h2⟩⟩
    refine a5.imp ?_
    rintro x v ⟨hx, d, hd, rfl⟩
    obtain ⟨hx, hf⟩ := List.mem_filter.1 hx
    obtain ⟨-, d', hd', hv⟩ := hfine x hx (by simpa using hf)
    rw [hd] at hd'
    cases hd'
    exact hv
  · -- no repetitions
    have h1 : ((visits.filter cross).map fun v => (v.1, v.2.1, v.2.2.1)).Nodup := a2.sublist (List.filter_sublist.map _)
    have h2 : ((visits.filter cross).map fun v => (v.1, v.2.1, v.2.2.1)) =
        ((visits.filter cross).map fun v => (v.1, v.2.1)).map fun e => (e.1, e.2, 0) := by
      rw [List.map_map]
      apply List.map_congr_left
      rintro ⟨D, p, j, q⟩ hv
      obtain ⟨hv, hc⟩ := List.mem_filter.1 hv
      obtain ⟨rfl, -⟩ := hvis D p j q hv (of_decide_eq_true hc)
      rfl
    rw [h2] at h1
    exact List.Nodup.of_map _ h1
  · -- which edges
    intro D p
    constructor
    · intro h
      obtain ⟨⟨D', p', j, q⟩, hv, he⟩ := List.mem_map.1 h
      simp only [Prod.mk.injEq] at he
      obtain ⟨rfl, rfl⟩ := he
      obtain ⟨hv, hc⟩ := List.mem_filter.1 hv
      have hne := of_decide_eq_true hc
      obtain ⟨rfl, hq⟩ := hvis D' p' j q hv hne
      have hm := a6 D' p' 0 q hv hne
      have hall : ∀ i, CrossingCell g (Spec.edgeCorner D' p' 1 i) ∧ (rootCube o.level).Has (Spec.edgeCorner D' p' 1 i) := by
        intro i
        have := hm i
        rw [hq i] at this
        obtain ⟨P, hP, h1, h2⟩ := (hmem _).1 this
        cases hP
        exact ⟨h1, h2⟩
      simp only [pow_zero, segEnd_one] at hne
      refine ⟨⟨?_, hne⟩, ?_⟩
      · intro v hv
        have h2 : Cube.Closed ⟨Spec.edgeCorner D' p' 1 2, 0⟩ v := by
          rw [cubeClosed_iff]
          intro a
          cases D' <;> simp only [edgeVertices, List.mem_cons, List.not_mem_nil, or_false] at hv <;> rcases hv with rfl | rfl <;>
            cases a <;> simp [Spec.edgeCorner, edgeOff, IVec3.get, Cube.side, shift]
        apply hin
        apply closed_sub _ h2
        have := (hall 2).2
        rw [cubeHas_iff] at this
        rw [cubeSub_iff]
        intro a
        have := this a
        simp only [Cube.side, pow_zero] at *
        omega
      · intro P hP
        rw [edgeCorner_cells] at hP
        simp only [List.mem_cons, List.not_mem_nil, or_false] at hP
        rcases hP with rfl | rfl | rfl | rfl <;> exact (hall _).2
    · rintro ⟨hc, hcells'⟩
      have hall : ∀ i, (⟨Spec.edgeCorner D p 1 i, 0⟩ : Cube) ∈ cells := by
        intro i
        have hmemE : Spec.edgeCorner D p 1 i ∈ cellsAroundEdge D p := by
          rw [edgeCorner_cells]
          fin_cases i <;> simp
        rw [hmem]
        refine ⟨_, rfl, ⟨hCellIn _ (hcells' _ hmemE), D, p, hc, ?_⟩, hcells' _ hmemE⟩
        exact around_iff.1 hmemE
      refine List.mem_map.2 ⟨(D, p, 0, fun i => ⟨Spec.edgeCorner D p 1 i, 0⟩), List.mem_filter.2 ⟨(a3 _ _ _ _).2 ⟨?_, ?_, ?_⟩, ?_⟩, rfl⟩
      · intro i; exact (List.mem_filter.1 (hall i)).1
      · intro i; simp only [pow_zero]; exact cubeSub_refl _
      · exact ⟨0, by simp⟩
      · apply decide_eq_true
        simp only [pow_zero, segEnd_one]
        exact hc.2
  · intro D p h P hP
    obtain ⟨⟨D', p', j, q⟩, hv, he⟩ := List.mem_map.1 h
    simp only [Prod.mk.injEq] at he
    obtain ⟨rfl, rfl⟩ := he
    obtain ⟨hv, hc⟩ := List.mem_filter.1 hv
    have hne := of_decide_eq_true hc
    obtain ⟨rfl, hq⟩ := hvis D' p' j q hv hne
    have hm := a6 D' p' 0 q hv hne
    rw [edgeCorner_cells] at hP
    simp only [List.mem_cons, List.not_mem_nil, or_false] at hP
    rcases hP with rfl | rfl | rfl | rfl
    · exact hq 0 ▸ hm 0
    · exact hq 1 ▸ hm 1
    · exact hq 2 ▸ hm 2
    · exact hq 3 ▸ hm 3
  · -- triangles
    simp only [triangles_flatTri]
    rw [List.flatMap_map]
    have hfil : ∀ (l : List (Axis × IVec3 × Nat × (Fin 4 → Cube))) (f : Axis × IVec3 × Nat × (Fin 4 → Cube) → List (Nat × Nat × Nat)),
        (∀ v ∈ l, cross v = false → f v = []) → l.flatMap f = (l.filter cross).flatMap f := by
      intro l f
      induction l with
      | nil => intro _; rfl
      | cons v l ih =>
        intro h
        rw [List.flatMap_cons, ih (fun v hv => h v (List.mem_cons_of_mem _ hv)), List.filter_cons]
        cases hcv : cross v
        · rw [h v List.mem_cons_self hcv]; simp
        · simp
    rw [hfil _ _ (by
      rintro ⟨D, p, j, q⟩ - hcv
      have := of_decide_eq_false hcv
      simp only [not_not] at this
      unfold octEdgeQuad
      rw [if_pos this])]
    apply List.flatMap_congr
    rintro ⟨D, p, j, q⟩ hv
    obtain ⟨hv, hc⟩ := List.mem_filter.1 hv
    have hne := of_decide_eq_true hc
    obtain ⟨rfl, hq⟩ := hvis D p j q hv hne
    have hm := a6 D p 0 q hv hne
    have hinj : ∀ i i', i ≠ i' → cells.idxOf (q i) ≠ cells.idxOf (q i') := by
      intro i i' hii hid
      have hqq := (List.idxOf_inj (hm i)).1 hid
      rw [hq i, hq i'] at hqq
      have hcc := congrArg Cube.lo hqq
      exact hii (edgeCorner_inj D p i i' hcc)
    unfold octEdgeQuad unitQuad
    simp only at hne ⊢
    rw [if_neg hne, edgeCorner_cells]
    simp only [List.map_cons, List.map_nil]
    rw [← hq 0, ← hq 1, ← hq 2, ← hq 3]
    unfold octQuad
    have i01 := hinj 0 1 (by decide)
    have i02 := hinj 0 2 (by decide)
    have i03 := hinj 0 3 (by decide)
    have i12 := hinj 1 2 (by decide)
    have i23 := hinj 2 3 (by decide)
    cases hs : solidAt g p
    · simp [i01, i02, i03, i12, i23, i12.symm, i23.symm]
    · simp [i01, i02, i03, i12, i23, i12.symm, i23.symm]

end Isomesh
