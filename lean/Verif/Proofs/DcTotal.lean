import Verif.Proofs.DcTree

/-! Completion of `DC_Octree::build`, and the decision whether a node is collapsed. -/

namespace Isomesh
open Spec

set_option linter.unusedSectionVars false
variable {K : Type} [Add K] [_root_.Sub K] [Mul K] [Div K] [Neg K] [Zero K] [One K] [OfNat K 2] [OfScientific K] [NatCast K] [IntCast K]
  [Fabs K] [Elem K] [LinearOrder K] [RoundedLaws K]

variable {env : DcEnv K}

theorem merge_some {d M : Nat} {tiny : K} (hM : 2 * (d + 1) ≤ M) {q : Qef K d} (hq : q.usedRows ≤ M) (s : QState K d) :
    ∃ q', q.merge M tiny s = some q' ∧ q'.usedRows ≤ M ∧ massOf q' = (massOf q).combine (stateMass s) ∧ SameOptions q q' := by
  have hm := mergeMass_eq q s
  have hmm := mergeMass_mass q s
  have hu0 : (q.mergeMass s).usedRows = q.usedRows := by rw [hm]
  have ho : SameOptions q (q.mergeMass s) := by rw [hm]; exact ⟨rfl, rfl, rfl, rfl⟩
  have : ∃ q1, (q.mergeMass s).roomForMerge M tiny = some q1 ∧ q1.usedRows + (d + 1) ≤ M ∧ massOf q1 = massOf (q.mergeMass s) ∧
      SameOptions (q.mergeMass s) q1 := by
    unfold Qef.roomForMerge
    by_cases hu : ((q.mergeMass s).usedRows : Int) > (M : Int) - (d + 1 : Nat)
    · rw [if_pos hu]
      obtain ⟨B, hB⟩ := compress_some (tiny := tiny) (q := q.mergeMass s) (by omega : d + 1 ≤ M) (by rw [hu0]; exact hq)
      exact ⟨_, hB, by show d + 1 + (d + 1) ≤ M; omega, rfl, ⟨rfl, rfl, rfl, rfl⟩⟩
    · rw [if_neg hu]
      exact ⟨_, rfl, by omega, rfl, sameOptions_refl _⟩
  obtain ⟨q1, h1, h2, h3, h4⟩ := this
  unfold Qef.merge
  simp only [h1, Option.bind_eq_bind, Option.bind_some]
  rw [merge_rows s.a q1.usedRows h2 q1.A]
  refine ⟨_, rfl, h2, ?_, sameOptions_trans ho h4⟩
  rw [← hmm, ← h3]
  rfl

/-- Stored states of the crossed children. -/
def crossedStates (l : Fin 8 → DcLeaf K) (is : List (Fin 8)) : List (QState K 3) :=
  is.filterMap fun i => if (l i).homogeneous then none else (l i).dual.map (·.qef)

/-- Stored normals of the crossed children. -/
def crossedNormals (l : Fin 8 → DcLeaf K) (is : List (Fin 8)) : List (Vec3 K) :=
  is.filterMap fun i => if (l i).homogeneous then none else (l i).dual.map (·.normal)

theorem combine_cnt {d : Nat} {a b : Mass K d} (h : a.cnt + b.cnt < 2 ^ 32) (hb : 1 ≤ b.cnt) (ha : a.cnt = 0 → a.dim = 0) :
    1 ≤ (a.combine b).cnt ∧ (a.combine b).cnt ≤ a.cnt + b.cnt := by
  unfold Mass.combine
  split
  · omega
  split
  · rename_i h1 h2
    have : a.cnt ≠ 0 := fun h => by have := ha h; omega
    omega
  · simp only
    rw [Nat.mod_eq_of_lt h]
    omega

theorem dcMerge_eq {l : Fin 8 → DcLeaf K} {B : Nat}
    (hl : ∀ i, (l i).homogeneous = false → ∃ d, (l i).dual = some d ∧ 1 ≤ d.qef.mpCnt ∧ d.qef.mpCnt ≤ B) :
    ∀ (is : List (Fin 8)) (q : Qef K 3) (avg : Vec3 K), q.usedRows ≤ qef3Rows → q.pointsCount + is.length * B < 2 ^ 32 →
      (q.pointsCount = 0 → q.featureDim = 0) →
      ∃ q', is.foldlM (dcMergeStep env l) (q, avg) = some (q', (crossedNormals l is).foldl Vec3.add avg) ∧
        runOps qef3Rows 30 env.tiny q ((crossedStates l is).map .merge) = some q' ∧
        q'.usedRows ≤ qef3Rows ∧ SameOptions q q' ∧ q'.pointsCount ≤ q.pointsCount + is.length * B ∧
        (q'.pointsCount = 0 → q'.featureDim = 0) ∧
        (1 ≤ q.pointsCount ∨ (∃ i ∈ is, (l i).homogeneous = false) → 1 ≤ q'.pointsCount) := by
  intro is
  induction is with
  | nil =>
    intro q avg hq hc hd
    refine ⟨q, rfl, rfl, hq, sameOptions_refl _, by simp, hd, ?_⟩
    rintro (h | ⟨i, hi, -⟩)
    · exact h
    · cases hi
  | cons i is ih =>
    intro q avg hq hc hd
    rw [List.length_cons, Nat.add_one_mul] at hc
    rw [List.foldlM_cons]
    rw [dcMergeStep.eq_1 env l (q, avg) i]
    by_cases hh : (l i).homogeneous = true
    · rw [if_pos hh]
      simp only [Option.bind_eq_bind, Option.bind_some]
      obtain ⟨q', h1, h2, h3, h4, h5, h6, h7⟩ := ih q avg hq (by omega) hd
      refine ⟨q', ?_, ?_, h3, h4, ?_, h6, ?_⟩
      · simpa [crossedNormals, List.filterMap_cons, hh] using h1
      · simpa [crossedStates, List.filterMap_cons, hh] using h2
      · rw [List.length_cons, Nat.add_one_mul]; omega
      · rintro (h | ⟨j, hj, hj'⟩)
        · exact h7 (Or.inl h)
        · rcases List.mem_cons.1 hj with rfl | hj
          · rw [hh] at hj'; cases hj'
          · exact h7 (Or.inr ⟨j, hj, hj'⟩)
    · have hf : (l i).homogeneous = false := by simpa using hh
      rw [if_neg hh]
      obtain ⟨d, hd1, hd2, hd3⟩ := hl i hf
      obtain ⟨q1, m1, m2, m3, m4⟩ := merge_some (M := qef3Rows) (tiny := env.tiny) (by simp [qef3Rows]) hq d.qef
      simp only [hd1, m1, Option.bind_eq_bind, Option.bind_some]
      have hcnt := combine_cnt (a := massOf q) (b := stateMass d.qef) (by simp only [massOf, stateMass]; omega) hd2 hd
      rw [← m3] at hcnt
      simp only [massOf, stateMass] at hcnt
      obtain ⟨q', h1, h2, h3, h4, h5, h6, h7⟩ := ih q1 (avg.add d.normal) m2 (by omega) (by omega)
      refine ⟨q', ?_, ?_, h3, sameOptions_trans m4 h4, ?_, h6, fun _ => h7 (Or.inl hcnt.1)⟩
      · simpa [crossedNormals, List.filterMap_cons, hf, hd1] using h1
      · simp only [crossedStates, List.filterMap_cons, hf, Bool.false_eq_true, if_false, hd1, Option.map_some, List.map_cons]
        unfold runOps
        rw [List.foldlM_cons]
        simp only [QefOp.apply, m1, Option.bind_eq_bind, Option.bind_some]
        exact h2
      · rw [List.length_cons, Nat.add_one_mul]; omega

theorem state_some {q : Qef K 3} {tiny : K} (hq : q.usedRows ≤ qef3Rows) (hc : q.pointsCount < 2 ^ 30) :
    ∃ q' s, q.state qef3Rows 30 tiny = some (q', s) ∧ s.mpCnt = q.pointsCount ∧ SameOptions q q' := by
  obtain ⟨A, hA⟩ := compress_some (tiny := tiny) (by simp [qef3Rows] : 3 + 1 ≤ qef3Rows) hq
  unfold Qef.state
  simp only [hA, Option.bind_eq_bind, Option.bind_some]
  rw [if_pos hc]
  exact ⟨_, _, rfl, rfl, ⟨rfl, rfl, rfl, rfl⟩⟩

theorem solveBox_some {q : Qef K 3} (hq : q.usedRows ≤ qef3Rows) (hc : q.pointsCount ≠ 0) (hp : 0 < q.pinvTolerance) (lo : IVec3)
    (k : Nat) : ∃ q' x, dcSolveBox env q lo k = some (q', x) ∧ q'.usedRows ≤ qef3Rows ∧ q'.pointsCount = q.pointsCount ∧
      SameOptions q q' := by
  unfold dcSolveBox
  rcases solve_cases (tiny := env.tiny) (by simp [qef3Rows] : 1 + 2 + 1 ≤ qef3Rows) hq lo.toReal.toVecN
    (upperCorner lo k).toReal.toVecN with ⟨-, h | h⟩ | ⟨A, f, x, h, -⟩
  · exact absurd h hc
  · exact absurd h (not_le.2 hp)
  · exact ⟨_, x, h, by simp [qef3Rows], rfl, ⟨rfl, rfl, rfl, rfl⟩⟩

/-- Number of points of the stored states. -/
def CountOK : DcNode K → Nat → Prop
  | .leaf l, k => l.homogeneous = false → ∃ d, l.dual = some d ∧ 1 ≤ d.qef.mpCnt ∧ d.qef.mpCnt ≤ 12 * 8 ^ k
  | .inner _ _, _ => True

theorem dcBuildLeaf_total {g : Grid K} (h : Filled g) {lo : IVec3} (hin : CellIn g.maxCoord lo) (depth : Nat) {q : Qef K 3}
    (hp : 0 < q.pinvTolerance) : ∃ q' n, dcBuildLeaf env g depth lo q = some (q', n) ∧ SameOptions q q' ∧ CountOK n 0 := by
  obtain ⟨corners, es, q1, ms, h1, -, h3, -, h5, -, h7, h8, h9, -, -, h10⟩ := dcBuildLeaf_eq (env := env) h hin depth q
  rw [h10]
  by_cases hes : es = []
  · rw [if_neg (by simpa using hes)]
    refine ⟨_, _, rfl, h9, ?_⟩
    intro hf
    have := (homogeneous_iff (g := g) (c := ⟨lo, 0⟩) (l := ⟨depth, corners, none, none⟩) h1).2 (fun hh => h5.2 hh hes)
    rw [this] at hf
    cases hf
  · rw [if_pos hes]
    have hlen : 1 ≤ es.length := List.length_pos_iff.2 hes
    obtain ⟨q2, x, a1, a2, a3, a4⟩ := solveBox_some (env := env) (q := q1) h7 (by omega) (by rw [h9.1]; exact hp) lo 0
    obtain ⟨q3, s, b1, b2, b3⟩ := state_some (tiny := env.tiny) a2 (by rw [a3, h8]; omega)
    simp only [a1, b1, Option.bind_eq_bind, Option.bind_some]
    refine ⟨_, _, rfl, sameOptions_trans h9 (sameOptions_trans a4 b3), fun _ => ⟨_, rfl, ?_, ?_⟩⟩
    · rw [b2, a3, h8]; exact hlen
    · rw [b2, a3, h8]; simpa using h3

theorem dcTryCollapse_total {g : Grid K} {epsilon : K} {simplify : Bool} {depth : Nat} {lo : IVec3} {k : Nat} {ch : Fin 8 → DcNode K}
    (hch : ∀ i, TreeOK g (ch i) ⟨octCorner lo (2 ^ k) i, k⟩ (depth + 1)) (hcnt : ∀ i, CountOK (ch i) k) {q : Qef K 3}
    (hp : 0 < q.pinvTolerance) (hk : simplify = false ∨ k + 1 ≤ 8) :
    ∃ q' n, dcTryCollapse env epsilon simplify depth lo (k + 1) ch q = some (q', n) ∧ SameOptions q q' ∧ CountOK n (k + 1) := by
  unfold dcTryCollapse
  cases hl : dcLeafChildren ch with
  | none => exact ⟨_, _, rfl, sameOptions_refl _, trivial⟩
  | some l =>
    have hl' := dcLeafChildren_some hl
    have hok : ∀ i, LeafOK g ⟨octCorner lo (2 ^ k) i, k⟩ (l i) := by
      intro i
      have := hch i
      rw [hl' i] at this
      exact this.1
    simp only
    by_cases hh : ∀ i, (l i).homogeneous = true
    · rw [if_pos hh]
      refine ⟨_, _, rfl, sameOptions_refl _, fun hf => ?_⟩
      obtain ⟨d, hd, -⟩ := (homog_collapse hok hh depth).dual hf
      cases hd
    rw [if_neg hh]
    by_cases hs : simplify = true
    swap
    · rw [if_neg hs]; exact ⟨_, _, rfl, sameOptions_refl _, trivial⟩
    rw [if_pos hs]
    by_cases ht : dcTopoSafety (dcCubeMats l) = true
    swap
    · rw [if_neg ht]; exact ⟨_, _, rfl, sameOptions_refl _, trivial⟩
    rw [if_pos ht]
    have hk8 : k + 1 ≤ 8 := by rcases hk with h | h <;> simp_all
    have hB : 8 * (12 * 8 ^ k) = 12 * 8 ^ (k + 1) := by rw [pow_succ]; ring
    have hB2 : 12 * 8 ^ (k + 1) < 2 ^ 30 :=
      lt_of_le_of_lt (Nat.mul_le_mul_left 12 (Nat.pow_le_pow_right (by norm_num) hk8)) (by norm_num)
    have hcl : ∀ i, (l i).homogeneous = false → ∃ d, (l i).dual = some d ∧ 1 ≤ d.qef.mpCnt ∧ d.qef.mpCnt ≤ 12 * 8 ^ k := by
      intro i
      have := hcnt i
      rw [hl' i] at this
      exact this
    obtain ⟨q1, a1, -, a3, a4, a5, -, a7⟩ := dcMerge_eq (env := env) hcl (List.finRange 8) q.reset ⟨0, 0, 0⟩ (by simp [Qef.reset])
      (by simp only [Qef.reset, List.length_finRange]; omega) (by simp [Qef.reset])
    have hex : ∃ i ∈ List.finRange 8, (l i).homogeneous = false := by
      by_contra hcon
      apply hh
      intro i
      by_contra hi
      exact hcon ⟨i, List.mem_finRange i, by simpa using hi⟩
    have hpos := a7 (Or.inr hex)
    have hle : q1.pointsCount ≤ 12 * 8 ^ (k + 1) := by
      simp only [Qef.reset, List.length_finRange] at a5; omega
    have ho : SameOptions q q1 := sameOptions_trans ⟨rfl, rfl, rfl, rfl⟩ a4
    obtain ⟨q2, x, b1, b2, b3, b4⟩ := solveBox_some (env := env) (q := q1) a3 (by omega) (by rw [ho.1]; exact hp) lo (k + 1)
    obtain ⟨q3, s, c1, c2, c3⟩ := state_some (tiny := env.tiny) b2 (by rw [b3]; omega)
    obtain ⟨err, he⟩ := eval_some b2 x
    unfold dcFit
    simp only [a1, b1, c1, he, Option.bind_eq_bind, Option.bind_some]
    split
    · exact ⟨_, _, rfl, sameOptions_trans ho b4, trivial⟩
    · refine ⟨_, _, rfl, sameOptions_trans ho (sameOptions_trans b4 c3), fun _ => ⟨_, rfl, ?_, ?_⟩⟩
      · rw [c2, b3]; exact hpos
      · rw [c2, b3]; exact hle

theorem dcBuildNode_total {g : Grid K} (hg : Filled g) {epsilon : K} {simplify : Bool} : ∀ (k depth : Nat) (lo : IVec3) (q : Qef K 3),
    CubeIn g.maxCoord ⟨lo, k⟩ → 0 < q.pinvTolerance → simplify = false ∨ k ≤ 8 →
    ∃ q' n, dcBuildNode env g epsilon simplify k depth lo q = some (q', n) ∧ SameOptions q q' ∧ CountOK n k := by
  intro k
  induction k with
  | zero => intro depth lo q hin hp _; exact dcBuildLeaf_total hg (cubeIn_cell hin) depth hp
  | succ k ih =>
    intro depth lo q hin hp hk
    have hch := threadM_total (fun q1 => SameOptions q q1) 8
      (fun i n => CountOK n k ∧ TreeOK g n ⟨octCorner lo (2 ^ k) i, k⟩ (depth + 1))
      (fun i q => dcBuildNode env g epsilon simplify k (depth + 1) (childCorner lo k i) q) (by
        intro i q1 ho
        rw [childCorner_eq]
        obtain ⟨q2, n, a1, a2, a3⟩ := ih (depth + 1) (octCorner lo (2 ^ k) i) q1 (cubeIn_octant hin i) (by rw [ho.1]; exact hp)
          (hk.imp id (by omega))
        exact ⟨q2, n, a1, sameOptions_trans ho a2, a3, dcBuildNode_ok hg _ _ _ _ _ _ (cubeIn_octant hin i) a1⟩)
      (sameOptions_refl q)
    obtain ⟨q1, ch, b1, b2, b3⟩ := hch
    rw [dcBuildNode, b1]
    simp only
    obtain ⟨q2, n, c1, c2, c3⟩ := dcTryCollapse_total (env := env) (epsilon := epsilon) (simplify := simplify) (fun i => (b3 i).2)
      (fun i => (b3 i).1) (q := q1) (by rw [b2.1]; exact hp) hk
    exact ⟨q2, n, c1, sameOptions_trans b2 c2, c3⟩

end Isomesh
