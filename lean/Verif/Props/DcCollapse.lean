import Verif.Proofs.DcTopo
import Verif.Props.DcOctree

/-! C22 (completion), C24: when a node is collapsed. -/

namespace Isomesh
open Spec

set_option linter.unusedSectionVars false
variable {K : Type} [Add K] [_root_.Sub K] [Mul K] [Div K] [Neg K] [Zero K] [One K] [OfNat K 2] [OfScientific K] [NatCast K] [IntCast K]
  [Fabs K] [Elem K] [LinearOrder K] [RoundedLaws K]

/-- C22, completion.  `build` and `contour` complete for every filled grid, whatever the error bound, without
simplification, or with it for octrees of side at most 256 (beyond that a counter of the error systems might reach the
limit of its 30 bits).  The options of the solver are kept. -/
theorem C22_completes {env : DcEnv K} {g : Grid K} (hg : Filled g) (o : DcOctree K) {solver : Qef K 3} (epsilon : K) {simplify : Bool}
    (hin : CubeIn g.maxCoord (rootCube o.level)) (hp : 0 < solver.pinvTolerance) (hk : simplify = false ∨ o.level ≤ 8) :
    ∃ q' o' r o'', o.build env g solver epsilon simplify = some (q', o') ∧ SameOptions solver q' ∧
      o'.contour = some (r, o'') := by
  rw [← rootCube_eq] at hin
  obtain ⟨q', n, h1, h2, -⟩ := dcBuildNode_total (env := env) hg (epsilon := epsilon / (o.globalScale * o.globalScale)) o.level 0
    (rootCorner o.level) solver hin hp hk
  have hb : o.build env g solver epsilon simplify = some (q', { o with root := n }) := by
    unfold DcOctree.build
    rw [h1]
  rw [rootCube_eq] at hin
  obtain ⟨r, o'', -, h3, -⟩ := C22_contour hg hin hb
  exact ⟨q', _, r, o'', hb, h2, h3⟩

theorem dcLeafChildren_of {ch : Fin 8 → DcNode K} {l : Fin 8 → DcLeaf K} (h : ∀ i, ch i = .leaf (l i)) : dcLeafChildren ch = some l := by
  unfold dcLeafChildren
  rw [dif_pos (by intro i; rw [h i]; rfl)]
  congr 1
  funext i
  have : ∀ (n : DcNode K) (hh : (dcLeafOf n).isSome = true), n = .leaf (l i) → (dcLeafOf n).get hh = l i := by
    rintro n hh rfl; rfl
  exact this _ _ (h i)

theorem octantStates_eq {g : Grid K} {lo : IVec3} {k : Nat} {l : Fin 8 → DcLeaf K}
    (hok : ∀ i, LeafOK g ⟨octCorner lo (2 ^ k) i, k⟩ (l i)) : crossedStates l (List.finRange 8) = octantStates g ⟨lo, k + 1⟩ l := by
  unfold crossedStates octantStates
  congr 1
  funext i
  have := homogeneous_iff (hok i).corners
  by_cases h : Hetero g (Cube.octant ⟨lo, k + 1⟩ i)
  · rw [if_pos h, if_neg (by rw [this]; exact fun hn => hn h)]
  · rw [if_neg h, if_pos (this.2 h)]

theorem upper_eq (lo : IVec3) (k : Nat) : lo.toReal.toVecN = ![(lo.x : K), (lo.y : K), (lo.z : K)] ∧
    (upperCorner lo k).toReal.toVecN = ![((lo.x + 2 ^ k : Int) : K), ((lo.y + 2 ^ k : Int) : K), ((lo.z + 2 ^ k : Int) : K)] :=
  ⟨rfl, rfl⟩


/-- The dcMerge fold as a history of calls (no assumption on the stored counters). -/
theorem dcMerge_run {env : DcEnv K} {l : Fin 8 → DcLeaf K} : ∀ (is : List (Fin 8)) (q : Qef K 3) (avg : Vec3 K) (r : Qef K 3 × Vec3 K),
    is.foldlM (dcMergeStep env l) (q, avg) = some r →
      runOps qef3Rows 30 env.tiny q ((crossedStates l is).map .merge) = some r.1 ∧ r.2 = (crossedNormals l is).foldl Vec3.add avg := by
  intro is
  induction is with
  | nil => intro q avg r h; cases h; exact ⟨rfl, rfl⟩
  | cons i is ih =>
    intro q avg r h
    rw [List.foldlM_cons, dcMergeStep.eq_1 env l (q, avg) i] at h
    by_cases hh : (l i).homogeneous = true
    · rw [if_pos hh] at h
      simp only [Option.bind_eq_bind, Option.bind_some] at h
      simpa [crossedStates, crossedNormals, List.filterMap_cons, hh] using ih q avg r h
    · rw [if_neg hh] at h
      cases hd : (l i).dual with
      | none => rw [hd] at h; cases h
      | some d =>
        rw [hd] at h
        simp only at h
        cases hm : q.merge qef3Rows env.tiny d.qef with
        | none => rw [hm] at h; cases h
        | some q1 =>
          rw [hm] at h
          simp only [Option.bind_eq_bind, Option.bind_some] at h
          obtain ⟨h1, h2⟩ := ih q1 _ r h
          refine ⟨?_, ?_⟩
          · simp only [crossedStates, List.filterMap_cons, hh, Bool.false_eq_true, if_false, hd, Option.map_some, List.map_cons]
            unfold runOps
            rw [List.foldlM_cons]
            simp only [QefOp.apply, hm, Option.bind_eq_bind, Option.bind_some]
            exact h1
          · rw [h2]
            simp [crossedNormals, List.filterMap_cons, hh, hd]

theorem octCorner_half (i : Fin 8) : HalfGrid (octCorner ⟨0, 0, 0⟩ 2 i) := by
  intro a; rw [octCorner_get]; rcases octOff_01 i a with e | e <;> rw [e] <;> cases a <;> simp [IVec3.get]

theorem octCorner_half' (i j : Fin 8) : HalfGrid (octCorner (octOff i) 1 j) := by
  intro a; rw [octCorner_get]; rcases octOff_01 i a with e | e <;> rcases octOff_01 j a with e' | e' <;> rw [e, e'] <;> simp

theorem topoSafe_congr {M M' : IVec3 → Material} (h : ∀ p, HalfGrid p → M p = M' p) (hM : TopoSafe M) : TopoSafe M' := by
  refine ⟨?_, ?_, ?_, ?_, ?_⟩
  · have := hM.coarse
    simp only [h _ (octCorner_half _)] at this
    exact this
  · intro i
    have := hM.fine i
    simp only [h _ (octCorner_half' i _)] at this
    exact this
  · intro D p hp hD
    obtain ⟨q, a1, a2, a3, a4⟩ := hM.edges D p hp hD
    exact ⟨q, a1, a2, a3, by rw [← h p hp, ← h q a1]; exact a4⟩
  · intro D p hp hD
    obtain ⟨q, a1, a2, a3, a4⟩ := hM.faces D p hp hD
    exact ⟨q, a1, a2, a3, by rw [← h p hp, ← h q a1]; exact a4⟩
  · obtain ⟨q, a1, a2, a3⟩ := hM.centre
    exact ⟨q, a1, a2, by rw [← h q a1, ← h _ (by intro a; cases a <;> simp [IVec3.get])]; exact a3⟩

theorem halfGrid_sum {p : IVec3} (h : HalfGrid p) : ∃ i j, p = (cornerOff i).plus (cornerOff j) := by
  have split : ∀ c : Int, c = 0 ∨ c = 1 ∨ c = 2 → ∃ a ∈ [(0 : Int), 1], ∃ b ∈ [(0 : Int), 1], c = a + b := by
    rintro c (rfl | rfl | rfl)
    · exact ⟨0, by simp, 0, by simp, rfl⟩
    · exact ⟨0, by simp, 1, by simp, rfl⟩
    · exact ⟨1, by simp, 1, by simp, rfl⟩
  obtain ⟨a1, ha1, b1, hb1, e1⟩ := split _ (h .X)
  obtain ⟨a2, ha2, b2, hb2, e2⟩ := split _ (h .Y)
  obtain ⟨a3, ha3, b3, hb3, e3⟩ := split _ (h .Z)
  obtain ⟨i, i1, i2, i3⟩ := octOff_surjective _ ha1 _ ha2 _ ha3
  obtain ⟨j, j1, j2, j3⟩ := octOff_surjective _ hb1 _ hb2 _ hb3
  refine ⟨i, j, ?_⟩
  rw [cornerOff_eq, cornerOff_eq]
  apply ivec_ext
  intro a
  cases a
  · rw [e1]; simp only [IVec3.get, IVec3.plus, i1, j1]
  · rw [e2]; simp only [IVec3.get, IVec3.plus, i2, j2]
  · rw [e3]; simp only [IVec3.get, IVec3.plus, i3, j3]

theorem compress_same {d M : Nat} {tiny : K} {q q' : Qef K d} (h : q.compressMatrix M tiny = some q') : SameOptions q q' := by
  unfold Qef.compressMatrix at h
  simp only [Option.bind_eq_bind, Option.bind_eq_some_iff] at h
  obtain ⟨A, -, h⟩ := h
  cases h
  exact ⟨rfl, rfl, rfl, rfl⟩

theorem state_same {d M bits : Nat} {tiny : K} {q : Qef K d} {r : Qef K d × QState K d} (h : q.state M bits tiny = some r) :
    SameOptions q r.1 := by
  unfold Qef.state at h
  simp only [Option.bind_eq_bind, Option.bind_eq_some_iff] at h
  obtain ⟨q1, h1, h⟩ := h
  split at h
  · cases h; exact compress_same h1
  · cases h

theorem merge_same {d M : Nat} {tiny : K} {q q' : Qef K d} {s : QState K d} (h : q.merge M tiny s = some q') : SameOptions q q' := by
  unfold Qef.merge at h
  simp only [Option.bind_eq_bind, Option.bind_eq_some_iff] at h
  obtain ⟨q1, h1, A, -, h⟩ := h
  have hm : SameOptions q (q.mergeMass s) := by rw [mergeMass_eq q s]; exact ⟨rfl, rfl, rfl, rfl⟩
  have h2 : SameOptions (q.mergeMass s) q1 := by
    unfold Qef.roomForMerge at h1
    split at h1
    · exact compress_same h1
    · cases h1; exact sameOptions_refl _
  cases h
  exact sameOptions_trans hm h2

theorem solveBox_same {env : DcEnv K} {q : Qef K 3} {lo : IVec3} {k : Nat} {r : Qef K 3 × VecN K 3} (h : dcSolveBox env q lo k = some r) :
    SameOptions q r.1 := by
  obtain ⟨q1, h1, -, -, -, -, -, e1, e2, e3, e4, -⟩ := solve_gen h
  exact sameOptions_trans (compress_same h1) ⟨e1, e2, e3, e4⟩

theorem dcMerge_same {env : DcEnv K} {l : Fin 8 → DcLeaf K} : ∀ (is : List (Fin 8)) (s r : Qef K 3 × Vec3 K),
    is.foldlM (dcMergeStep env l) s = some r → SameOptions s.1 r.1 := by
  intro is
  induction is with
  | nil => intro s r h; cases h; exact sameOptions_refl _
  | cons i is ih =>
    intro s r h
    rw [List.foldlM_cons] at h
    simp only [Option.bind_eq_bind, Option.bind_eq_some_iff] at h
    obtain ⟨s1, h1, h⟩ := h
    refine sameOptions_trans ?_ (ih _ _ h)
    unfold dcMergeStep at h1
    split at h1
    · cases h1; exact sameOptions_refl _
    split at h1
    · cases h1
    split at h1
    · cases h1
    rename_i hm
    cases h1
    exact merge_same hm

theorem dcTryCollapse_same {env : DcEnv K} {epsilon : K} {simplify : Bool} {depth : Nat} {lo : IVec3} {k : Nat} {ch : Fin 8 → DcNode K}
    {q q' : Qef K 3} {n : DcNode K} (h : dcTryCollapse env epsilon simplify depth lo k ch q = some (q', n)) : SameOptions q q' := by
  unfold dcTryCollapse at h
  split at h
  · cases h; exact sameOptions_refl _
  split at h
  · cases h; exact sameOptions_refl _
  split at h
  swap
  · cases h; exact sameOptions_refl _
  split at h
  swap
  · cases h; exact sameOptions_refl _
  simp only [dcFit, Option.bind_eq_bind, Option.bind_eq_some_iff] at h
  obtain ⟨qa, h1, qv, h2, err, -, h⟩ := h
  have ho : SameOptions q qv.1 :=
    sameOptions_trans (sameOptions_trans (b := q.reset) ⟨rfl, rfl, rfl, rfl⟩ (dcMerge_same _ _ _ h1)) (solveBox_same h2)
  split at h
  · cases h; exact ho
  simp only [Option.bind_eq_some_iff] at h
  obtain ⟨qs, h3, h⟩ := h
  cases h
  exact sameOptions_trans ho (state_same h3)

/-- Building a node keeps the options of the solver. -/
theorem dcBuildNode_same {env : DcEnv K} {g : Grid K} (hg : Filled g) {epsilon : K} {simplify : Bool} : ∀ (k depth : Nat) (lo : IVec3)
    (q q' : Qef K 3) (n : DcNode K), CubeIn g.maxCoord ⟨lo, k⟩ → dcBuildNode env g epsilon simplify k depth lo q = some (q', n) →
    SameOptions q q' := by
  intro k
  induction k with
  | zero =>
    intro depth lo q q' n hin h
    obtain ⟨corners, es, q1, ms, -, -, -, -, -, -, -, -, h9, -, -, h10⟩ := dcBuildLeaf_eq (env := env) hg (cubeIn_cell hin) depth q
    rw [dcBuildNode, h10] at h
    split at h
    · simp only [Option.bind_eq_bind, Option.bind_eq_some_iff] at h
      obtain ⟨qv, h1, qs, h2, h⟩ := h
      cases h
      exact sameOptions_trans h9 (sameOptions_trans (solveBox_same h1) (state_same h2))
    · cases h; exact h9
  | succ k ih =>
    intro depth lo q q' n hin h
    rw [dcBuildNode] at h
    split at h
    · cases h
    rename_i q1 ch hch
    obtain ⟨h1, -⟩ := threadM_spec (fun q1 => SameOptions q q1) 8 _ (fun i s s' a hs hb => by
      rw [childCorner_eq] at hb
      exact sameOptions_trans hs (ih _ _ _ _ _ (cubeIn_octant hin i) hb)) (sameOptions_refl q) hch
    exact sameOptions_trans h1 (dcTryCollapse_same h)

/-- The test on the stored corners of eight leaves is the test on the grid. -/
theorem topo_of_leaves {g : Grid K} {lo : IVec3} {k : Nat} {l : Fin 8 → DcLeaf K}
    (hok : ∀ i, LeafOK g ⟨octCorner lo (2 ^ k) i, k⟩ (l i)) :
    dcTopoSafety (dcCubeMats l) = true ↔ TopoSafe (fun p => materialAt g (halfPoint ⟨lo, k + 1⟩ p)) := by
  have hM : ∀ i j, (l i).corners j = materialAt g (gridPt lo k ((cornerOff i).plus (cornerOff j))) := by
    intro i j; rw [materialAt, child_corners hok i j]; rfl
  rw [topoSafety_iff]
  have hp' : ∀ p, HalfGrid p → dcCubeMats l p = materialAt g (halfPoint ⟨lo, k + 1⟩ p) := by
    intro p hp
    obtain ⟨i, j, rfl⟩ := halfGrid_sum hp
    rw [dcCubeMats_eq (M := fun p => materialAt g (gridPt lo k p)) hM]
    rfl
  exact ⟨topoSafe_congr hp', topoSafe_congr fun p hp => (hp' p hp).symm⟩

/-- C24.  A node of side greater than 1 is made from eight children built independently (with solvers that have the same
options), and there are three cases:
* all children are leaves none of which is crossed: the node becomes a leaf without a vertex;
* all children are leaves, some are crossed, simplification is on, the 27 sample points of the cube are topologically
  safe, and the joint error system fits within the bound: the node becomes a leaf with the fitted vertex;
* otherwise (a child is subdivided, or some child is crossed and simplification is off, or the samples are not safe, or
  the error exceeds the bound) the node keeps exactly these children. -/
theorem C24_collapse {env : DcEnv K} {g : Grid K} (hg : Filled g) {epsilon : K} {simplify : Bool} {k depth : Nat} {lo : IVec3}
    (hin : CubeIn g.maxCoord ⟨lo, k + 1⟩) {q q' : Qef K 3} {n : DcNode K}
    (h : dcBuildNode env g epsilon simplify (k + 1) depth lo q = some (q', n)) :
    ∃ ch : Fin 8 → DcNode K,
      (∀ i, ∃ qi qi', SameOptions q qi ∧
        dcBuildNode env g epsilon simplify k (depth + 1) (octCorner lo (2 ^ k) i) qi = some (qi', ch i)) ∧
      ((∃ l : Fin 8 → DcLeaf K, (∀ i, ch i = .leaf (l i)) ∧ (∀ i, ¬ Hetero g (Cube.octant ⟨lo, k + 1⟩ i)) ∧
          ∃ corners, n = .leaf ⟨depth, corners, none, none⟩ ∧ ∀ i, corners i = materialAt g (octCorner lo (2 ^ (k + 1)) i)) ∨
       (∃ (l : Fin 8 → DcLeaf K) (x : VecN K 3) (err : K), (∀ i, ch i = .leaf (l i)) ∧ (∃ i, Hetero g (Cube.octant ⟨lo, k + 1⟩ i)) ∧ simplify = true ∧
          TopoSafe (fun p => materialAt g (halfPoint ⟨lo, k + 1⟩ p)) ∧ Fit env g q ⟨lo, k + 1⟩ l x err ∧ err ≤ epsilon ∧
          ∃ corners normal s, n = .leaf ⟨depth, corners, some ⟨Vec3.ofVecN x, normal, s⟩, none⟩ ∧
            ∀ i, corners i = materialAt g (octCorner lo (2 ^ (k + 1)) i)) ∨
       (n = .inner depth ch ∧
          ((∃ i d c, ch i = .inner d c) ∨
            ((∃ i, Hetero g (Cube.octant ⟨lo, k + 1⟩ i)) ∧ (simplify = false ∨
              ¬ TopoSafe (fun p => materialAt g (halfPoint ⟨lo, k + 1⟩ p)) ∨
              ∃ (l : Fin 8 → DcLeaf K) (x : VecN K 3) (err : K), (∀ i, ch i = .leaf (l i)) ∧ Fit env g q ⟨lo, k + 1⟩ l x err ∧ epsilon < err))))) := by
  rw [dcBuildNode] at h
  split at h
  · cases h
  rename_i q1 ch hch
  obtain ⟨b2, b3⟩ := threadM_spec (fun q1 => SameOptions q q1) 8 _ (fun i s s' a hs hb => by
    rw [childCorner_eq] at hb
    exact sameOptions_trans hs (dcBuildNode_same hg _ _ _ _ _ _ (cubeIn_octant hin i) hb)) (sameOptions_refl q) hch
  have b3 : ∀ i, TreeOK g (ch i) ⟨octCorner lo (2 ^ k) i, k⟩ (depth + 1) ∧ ∃ qi qi', SameOptions q qi ∧
      dcBuildNode env g epsilon simplify k (depth + 1) (octCorner lo (2 ^ k) i) qi = some (qi', ch i) := by
    intro i
    obtain ⟨t, t', ht, hi⟩ := b3 i
    rw [childCorner_eq] at hi
    exact ⟨dcBuildNode_ok hg _ _ _ _ _ _ (cubeIn_octant hin i) hi, t, t', ht, hi⟩
  refine ⟨ch, fun i => (b3 i).2, ?_⟩
  unfold dcTryCollapse at h
  cases hl : dcLeafChildren ch with
  | none =>
    rw [hl] at h
    cases h
    right; right
    refine ⟨rfl, Or.inl ?_⟩
    by_contra hcon
    have : ∀ i, ∃ l, ch i = .leaf l := by
      intro i
      cases hi : ch i with
      | leaf l => exact ⟨l, rfl⟩
      | inner d c => exact absurd ⟨i, d, c, hi⟩ hcon
    choose l hl' using this
    rw [dcLeafChildren_of hl'] at hl
    cases hl
  | some l =>
    rw [hl] at h
    simp only at h
    have hl' := dcLeafChildren_some hl
    have hok : ∀ i, LeafOK g ⟨octCorner lo (2 ^ k) i, k⟩ (l i) := by
      intro i
      have := (b3 i).1
      rw [hl' i] at this
      exact this.1
    have hhet : ∀ i, (l i).homogeneous = true ↔ ¬ Hetero g (Cube.octant ⟨lo, k + 1⟩ i) := fun i => homogeneous_iff (hok i).corners
    have hcor : ∀ i, (l i).corners i = materialAt g (octCorner lo (2 ^ (k + 1)) i) := by
      intro i; rw [materialAt, parent_corners hok i]; rfl
    have htopo := topo_of_leaves hok
    split at h
    · rename_i hh
      cases h
      left
      exact ⟨l, hl', fun i => (hhet i).1 (hh i), _, rfl, hcor⟩
    rename_i hn
    have hex : ∃ i, Hetero g (Cube.octant ⟨lo, k + 1⟩ i) := by
      by_contra hcon
      exact hn fun i => (hhet i).2 fun hi => hcon ⟨i, hi⟩
    split at h
    swap
    · rename_i hs
      cases h
      exact Or.inr (Or.inr ⟨rfl, Or.inr ⟨hex, Or.inl (by simpa using hs)⟩⟩)
    rename_i hs
    split at h
    swap
    · rename_i ht
      cases h
      exact Or.inr (Or.inr ⟨rfl, Or.inr ⟨hex, Or.inr (Or.inl (fun hh => ht (htopo.2 hh)))⟩⟩)
    rename_i ht
    simp only [dcFit, Option.bind_eq_bind, Option.bind_eq_some_iff] at h
    obtain ⟨qa, ha, qv, hv, err, he, h⟩ := h
    have hreset : q1.reset = q.reset := by
      obtain ⟨e1, e2, e3, e4⟩ := b2
      unfold Qef.reset
      rw [e1, e2, e3, e4]
    obtain ⟨r1, -⟩ := dcMerge_run _ _ _ _ ha
    have hfit : Fit env g q ⟨lo, k + 1⟩ l qv.2 err := by
      refine ⟨qa.1, qv.1, ?_, ?_, he⟩
      · rw [octantStates_eq hok, hreset] at r1
        simp only [runOps, List.foldlM_cons, QefOp.apply, Option.bind_eq_bind, Option.bind_some]
        exact r1
      · unfold dcSolveBox at hv
        rw [(upper_eq lo (k + 1)).1, (upper_eq lo (k + 1)).2] at hv
        exact hv
    split at h
    · rename_i hgt
      cases h
      exact Or.inr (Or.inr ⟨rfl, Or.inr ⟨hex, Or.inr (Or.inr ⟨l, _, _, hl', hfit, hgt⟩)⟩⟩)
    rename_i hle
    simp only [Option.bind_eq_some_iff] at h
    obtain ⟨qs, -, h⟩ := h
    cases h
    exact Or.inr (Or.inl ⟨l, _, _, hl', hex, hs, htopo.1 ht, hfit, not_lt.1 hle, _, _, _, rfl, hcor⟩)

end Isomesh
