import Verif.Props.DmcOctree
import Verif.Props.QefSolve
import Verif.Proofs.DcTotal

/-! Building of a dual marching cubes octree. -/

namespace Isomesh
open Spec

set_option linter.unusedSectionVars false
variable {K : Type} [Add K] [_root_.Sub K] [Mul K] [Div K] [Neg K] [Zero K] [One K] [OfNat K 2] [OfScientific K] [NatCast K] [IntCast K]
  [Fabs K] [Elem K] [LinearOrder K] [RoundedLaws K]

noncomputable section
open scoped Classical

variable {R : Type} {a : DmcArgs K R}

theorem reset_eq4 {options q : Qef K 4} (h : SameOptions options q) : q.reset = options.reset := by
  obtain ⟨h1, h2, h3, h4⟩ := h
  unfold Qef.reset
  rw [h1, h2, h3, h4]

theorem sizeK_real (k : Nat) : (sizeK k : ℝ) = 2 ^ k := by simp [sizeK]

theorem dmcDraws_length (env : DmcEnv K R) (k n : Nat) (r : R) : (dmcDraws env k n r).1.length = n := by
  induction n generalizing r with
  | zero => rfl
  | succ n ih => simp [dmcDraws, ih]

theorem dmcOffsets_ok (k : Nat) (r : R) : SampleOffsets a k (dmcOffsets a k r).1 := by
  unfold SampleOffsets dmcOffsets
  split
  · exact ⟨r, rfl⟩
  · exact ⟨_, _, rfl, rfl, rfl⟩

/-- The sampling loop. -/
theorem dmcSample_fold (lo : IVec3) (offs : List (Vec3 K)) : ∀ (q : Qef K 4) (avg : Vec3 K), q.usedRows ≤ qef4Rows →
    q.pointsCount + offs.length < 2 ^ 32 →
    ∃ q', offs.foldlM (dmcSample a lo) (q, avg) = some (q', (offs.map (dmcGrad a lo)).foldl Vec3.add avg) ∧
      runOps qef4Rows 29 a.env.tiny q (samplePlanes a lo offs) = some q' ∧ q'.usedRows ≤ qef4Rows ∧
      q'.pointsCount = q.pointsCount + offs.length ∧ SameOptions q q' := by
  induction offs with
  | nil => intro q avg hq _; exact ⟨q, rfl, rfl, hq, rfl, sameOptions_refl q⟩
  | cons off offs ih =>
    intro q avg hq hc
    rw [List.length_cons] at hc
    obtain ⟨q1, h1, r1, c1, o1⟩ := addPlane_some (tiny := a.env.tiny) (M := qef4Rows) (by decide) hq (dmcPoint a lo off)
      (vec4 (dmcGrad a lo off) (-1))
    have c1' : q1.pointsCount = q.pointsCount + 1 := by rw [c1, u32, Nat.mod_eq_of_lt]; omega
    obtain ⟨q2, h2, g2, r2, c2, o2⟩ := ih q1 (avg.add (dmcGrad a lo off)) r1 (by omega)
    refine ⟨q2, ?_, ?_, r2, by rw [List.length_cons]; omega, sameOptions_trans o1 o2⟩
    · rw [List.foldlM_cons]
      unfold dmcSample
      simp only [h1, Option.bind_eq_bind, Option.bind_some]
      exact h2
    · unfold samplePlanes runOps at g2 ⊢
      rw [List.map_cons, List.foldlM_cons]
      simp only [QefOp.apply, h1, Option.bind_eq_bind, Option.bind_some]
      exact g2

theorem planes_err {a : DmcArgs ℝ R} (lo : IVec3) (offs : List (Vec3 ℝ)) (x : VecN ℝ 4) (e : ℝ) :
    (samplePlanes a lo offs).foldl (fun e op => op.addTo x e) e = e + fitError a lo offs ⟨x 0, x 1, x 2⟩ (x 3) := by
  induction offs generalizing e with
  | nil => simp [samplePlanes, fitError]
  | cons off offs ih =>
    unfold samplePlanes fitError at ih ⊢
    rw [List.map_cons, List.foldl_cons, ih, List.map_cons, List.sum_cons, ← add_assoc]
    congr 1
    simp only [QefOp.addTo, planeErr, dmcPoint, dmcGrad, vec4, Fin.sum_univ_four]
    simp only [Matrix.cons_val_zero, Matrix.cons_val_one, Matrix.cons_val]
    ring

/-- One solution step of the dual vertex. -/
theorem dmcSolveStep {q : Qef K 4} (hq : q.usedRows ≤ qef4Rows) (hc : q.pointsCount ≠ 0) (hp : 0 < q.pinvTolerance) (lo hi : VecN K 4) :
    ∃ q' x e, q.solve qef4Rows a.env.tiny lo hi = some (q', x) ∧ q'.usedRows ≤ qef4Rows ∧ q'.pointsCount = q.pointsCount ∧
      SameOptions q q' ∧ q'.eval qef4Rows x = some e := by
  rcases solve_cases (d := 2) (tiny := a.env.tiny) (M := qef4Rows) (by decide) hq lo hi with ⟨-, h | h⟩ | ⟨A, f, x, h1, -⟩
  · exact absurd h hc
  · exact absurd hp (not_lt.2 h)
  · have hu : 2 + 2 + 1 ≤ qef4Rows := by decide
    obtain ⟨e, he⟩ := eval_some (M := qef4Rows) (q := { q with A := A, usedRows := 2 + 2 + 1, featureDim := f }) hu x
    exact ⟨_, x, e, h1, hu, rfl, ⟨rfl, rfl, rfl, rfl⟩, he⟩

theorem box_inside {lo : IVec3} {k : Nat} {x : VecN K 4} {wl wh : K}
    (h : ∀ i, (3 : Fin 4) ≠ i → vec4 lo.toReal wl i ≤ x i ∧ x i ≤ vec4 (upperCorner lo k).toReal wh i) :
    Cube.ClosedR ⟨lo, k⟩ ⟨x 0, x 1, x 2⟩ := by
  have h0 := h 0 (by decide)
  have h1 := h 1 (by decide)
  have h2 := h 2 (by decide)
  simp only [vec4, upperCorner, IVec3.toReal, Matrix.cons_val_zero, Matrix.cons_val_one, Matrix.cons_val] at h0 h1 h2
  exact ⟨h0, h1, h2⟩

theorem clampV_mem3 {lo : IVec3} {k : Nat} (x : VecN K 4) (wl wh : K) (i : Fin 4) (hi : (3 : Fin 4) ≠ i) :
    vec4 lo.toReal wl i ≤ Qef.clampV x (vec4 lo.toReal wl) (vec4 (upperCorner lo k).toReal wh) i ∧
      Qef.clampV x (vec4 lo.toReal wl) (vec4 (upperCorner lo k).toReal wh) i ≤ vec4 (upperCorner lo k).toReal wh i := by
  have hle : vec4 lo.toReal wl i ≤ vec4 (upperCorner lo k).toReal wh i := by
    have hpos : (0 : Int) ≤ 2 ^ k := by positivity
    fin_cases i
    · exact RoundedLaws.cast_mono _ _ (by simp only [upperCorner]; omega)
    · exact RoundedLaws.cast_mono _ _ (by simp only [upperCorner]; omega)
    · exact RoundedLaws.cast_mono _ _ (by simp only [upperCorner]; omega)
    · exact absurd rfl hi
  unfold Qef.clampV
  exact ⟨le_min (le_max_right _ _) hle, min_le_right _ _⟩

theorem cleanRun_prefix {d M bits : Nat} {tiny : ℝ} (l l' : List (QefOp ℝ (d + 2))) : ∀ (q : Qef ℝ (d + 2)),
    CleanRun M bits tiny q (l ++ l') → CleanRun M bits tiny q l := by
  induction l with
  | nil => intro q _; trivial
  | cons op l ih =>
    intro q h
    exact ⟨h.1, fun q' hq' => ih q' (h.2 q' hq')⟩

theorem runOps_append {d M bits : Nat} {tiny : K} (l : List (QefOp K (d + 2))) (op : QefOp K (d + 2)) {q q1 q2 : Qef K (d + 2)}
    (h1 : runOps M bits tiny q l = some q1) (h2 : op.apply M bits tiny q1 = some q2) :
    runOps M bits tiny q (l ++ [op]) = some q2 := by
  unfold runOps at *
  rw [List.foldlM_append, h1]
  simp only [Option.bind_eq_bind, Option.bind_some, List.foldlM_cons, List.foldlM_nil, h2]
  rfl

theorem reset_inv (q : Qef ℝ 4) : QInv qef4Rows q.reset := ⟨by simp [Qef.reset], fun _ _ _ _ => rfl⟩

theorem reset_err (q : Qef ℝ 4) (p : VecN ℝ 4) : qerr q.reset p = 0 := by simp [qerr, Qef.reset]

theorem run_fit {a : DmcArgs ℝ R} {options q : Qef ℝ 4} {lo : IVec3} {offs : List (Vec3 ℝ)} {l : List (QefOp ℝ 4)} (ht : 0 < a.env.tiny)
    (hl : ∀ op ∈ l, ∃ lo hi, op = .solve lo hi)
    (hr : runOps qef4Rows 29 a.env.tiny options.reset (samplePlanes a lo offs ++ l) = some q)
    (hc : CleanRun qef4Rows 29 a.env.tiny options.reset (samplePlanes a lo offs ++ l)) (x : VecN ℝ 4) :
    qerr q x = fitError a lo offs ⟨x 0, x 1, x 2⟩ (x 3) := by
  rw [(run_spec (d := 2) ht (by decide) _ (reset_inv options) hc hr).2 x, List.foldl_append, planes_err, reset_err, zero_add]
  clear hr hc
  generalize fitError a lo offs ⟨x 0, x 1, x 2⟩ (x 3) = e
  induction l with
  | nil => rfl
  | cons op l ih =>
    obtain ⟨lo, hi, rfl⟩ := hl op List.mem_cons_self
    rw [List.foldl_cons]
    exact ih fun op hop => hl op (List.mem_cons_of_mem _ hop)

theorem clampV_zero (x : VecN K 4) (u v : Vec3 K) : Qef.clampV x (vec4 u 0) (vec4 v 0) 3 = 0 := by
  show min (max (x 3) 0) 0 = 0
  exact min_eq_right (le_max_right _ _)

theorem solve_clamp {q q' : Qef K 4} {tiny : K} {lo hi x : VecN K 4} (h : q.solve qef4Rows tiny lo hi = some (q', x)) :
    ∃ y, x = Qef.clampV y lo hi := by
  obtain ⟨q1, -, -, -, -, -, -, -, -, -, -, hx, -⟩ := solve_gen (d := 2) h
  exact ⟨_, hx⟩

/-- `generateDualVertex`. -/
theorem dmcGenerate_ok {options : Qef K 4} (hp : 0 < options.pinvTolerance) (lo : IVec3) (k : Nat) (s : Qef K 4 × R)
    (hs : SameOptions options s.1) (hn : (dmcOffsets a k s.2).1 ≠ []) (hlt : (dmcOffsets a k s.2).1.length < 2 ^ 32) :
    ∃ q' l ok, dmcGenerate a lo k s = some ((q', (dmcOffsets a k s.2).2), l, ok) ∧ SameOptions options q' ∧
      DmcLeafOK a options ⟨lo, k⟩ (dmcOffsets a k s.2).1 l ok := by
  set offs := (dmcOffsets a k s.2).1 with hoffs
  have hreset : s.1.reset = options.reset := reset_eq4 hs
  obtain ⟨q1, h1, g1, r1, c1, o1⟩ := dmcSample_fold (a := a) lo offs options.reset ⟨0, 0, 0⟩ (by simp [Qef.reset])
    (by simpa [Qef.reset] using hlt)
  have o1' : SameOptions options q1 := sameOptions_trans ⟨rfl, rfl, rfl, rfl⟩ o1
  have c1' : q1.pointsCount ≠ 0 := by
    rw [c1]
    have := List.length_pos_iff.2 hn
    omega
  have p1 : 0 < q1.pinvTolerance := by rw [o1'.1]; exact hp
  obtain ⟨q2, x2, e2, h2, r2, c2, o2, v2⟩ := dmcSolveStep (a := a) r1 c1' p1 (vec4 lo.toReal 0) (vec4 (upperCorner lo k).toReal 0)
  obtain ⟨y2, hy2⟩ := solve_clamp h2
  have hw2 : x2 3 = 0 := by rw [hy2]; exact clampV_zero _ _ _
  have hin2 : Cube.ClosedR ⟨lo, k⟩ ⟨x2 0, x2 1, x2 2⟩ := by
    refine box_inside (wl := 0) (wh := 0) fun i hi => ?_
    rw [hy2]
    exact clampV_mem3 _ _ _ i hi
  have hgen : dmcGenerate a lo k s = (do
      let r ← dmcSolve a q1 lo k
      let vertex : Vec3 K := ⟨r.2.1 0, r.2.1 1, r.2.1 2⟩
      let w := r.2.1 3
      let material := if w ≤ 0 then some (a.field.material (a.oct.localToGlobal vertex) (w * a.oct.globalScale)) else none
      some ((r.1, (dmcOffsets a k s.2).2), ⟨a.env.addr lo k, vertex, w,
        a.env.normalize ((offs.map (dmcGrad a lo)).foldl Vec3.add ⟨0, 0, 0⟩), material⟩, decide (r.2.2 ≤ a.epsilon))) := by
    unfold dmcGenerate
    rw [hreset]
    simp only [← hoffs, h1, Option.bind_eq_bind, Option.bind_some]
  by_cases he : e2 > a.epsilon
  · have c2' : q2.pointsCount ≠ 0 := by rw [c2]; exact c1'
    have p2 : 0 < q2.pinvTolerance := by rw [o2.1]; exact p1
    obtain ⟨q3, x3, e3, h3, r3, c3, o3, v3⟩ := dmcSolveStep (a := a) r2 c2' p2 (vec4 lo.toReal a.env.lowest)
      (vec4 (upperCorner lo k).toReal a.env.highest)
    obtain ⟨y3, hy3⟩ := solve_clamp h3
    have hsolve : dmcSolve a q1 lo k = some (q3, x3, e3) := by
      unfold dmcSolve
      simp only [h2, v2, Option.bind_eq_bind, Option.bind_some, if_pos he, h3, v3]
    rw [hsolve] at hgen
    simp only [Option.bind_eq_bind, Option.bind_some] at hgen
    have hx3 : vec4 ⟨x3 0, x3 1, x3 2⟩ (x3 3) = x3 := by funext i; fin_cases i <;> rfl
    refine ⟨_, _, _, hgen, sameOptions_trans o1' (sameOptions_trans o2 o3), rfl, ?_, ⟨q1, q2, x2, e2, g1, h2, v2, Or.inr ⟨he, q3, e3, ?_, ?_, ?_⟩⟩,
      Or.inr ?_, ?_, ?_, ?_⟩
    · refine box_inside (wl := a.env.lowest) (wh := a.env.highest) fun i hi => ?_
      rw [hy3]
      exact clampV_mem3 _ _ _ i hi
    · dsimp only; rw [hx3]; exact h3
    · dsimp only; rw [hx3]; exact v3
    · rw [decide_eq_true_eq]
    · intro hle
      show a.env.lowest ≤ x3 3 ∧ x3 3 ≤ a.env.highest
      have l3 : ∀ (u : Vec3 K) (w : K), vec4 u w 3 = w := fun u w => rfl
      rw [hy3]
      unfold Qef.clampV
      rw [l3, l3]
      exact ⟨le_min (le_max_right _ _) hle, min_le_right _ _⟩
    · rfl
    · intro hw; exact if_pos hw
    · intro hw; exact if_neg (not_le.2 hw)
  · have hsolve : dmcSolve a q1 lo k = some (q2, x2, e2) := by
      unfold dmcSolve
      simp only [h2, v2, Option.bind_eq_bind, Option.bind_some, if_neg he]
    rw [hsolve] at hgen
    simp only [Option.bind_eq_bind, Option.bind_some] at hgen
    have hx2 : vec4 ⟨x2 0, x2 1, x2 2⟩ (x2 3) = x2 := by funext i; fin_cases i <;> rfl
    refine ⟨_, _, _, hgen, sameOptions_trans o1' o2, rfl, hin2, ⟨q1, q2, x2, e2, g1, h2, v2, Or.inl ⟨not_lt.1 he, ?_, hx2⟩⟩, Or.inl hw2, rfl, ?_, ?_⟩
    · rw [decide_eq_true_eq]; exact not_lt.1 he
    · intro hw; exact if_pos hw
    · intro hw; exact if_neg (not_le.2 hw)

/-! ### The tree -/

theorem offsets_length {k : Nat} (hk : k ≤ 31) (r : R) :
    (dmcOffsets a k r).1 ≠ [] ∧ (dmcOffsets a k r).1.length < 2 ^ 32 := by
  unfold dmcOffsets
  split
  · have hl := dmcDraws_length a.env k (dmcPointCount k) r
    have h1 : 1 ≤ Real.sqrt (2 ^ k) := by
      rw [Real.one_le_sqrt]
      exact one_le_pow₀ (by norm_num)
    have h2 : Real.sqrt (2 ^ k) ≤ 2 ^ 16 := by
      rw [Real.sqrt_le_left (by positivity)]
      calc (2 : ℝ) ^ k ≤ 2 ^ 31 := pow_le_pow_right₀ (by norm_num) hk
        _ ≤ (2 ^ 16) ^ 2 := by norm_num
    have hpos : 1 ≤ dmcPointCount k := by
      unfold dmcPointCount
      rw [Nat.one_le_floor_iff]
      linarith
    have hlt : dmcPointCount k < 2 ^ 32 := by
      unfold dmcPointCount
      rw [Nat.floor_lt (by positivity)]
      push_cast
      linarith
    refine ⟨?_, ?_⟩
    · intro h
      rw [h] at hl
      simp at hl
      omega
    · simp only [hl]
      exact hlt
  · simp [dmcOffsetTable]

theorem dmcBuildNode_ok {options : Qef K 4} (hp : 0 < options.pinvTolerance) : ∀ (k : Nat), k ≤ 31 → ∀ (lo : IVec3) (s : Qef K 4 × R),
    SameOptions options s.1 → ∃ s' n, dmcBuildNode a k lo s = some (s', n) ∧ SameOptions options s'.1 ∧
      DmcTreeOK a options n ⟨lo, k⟩ := by
  have gen : ∀ (k : Nat), k ≤ 31 → ∀ (lo : IVec3) (s : Qef K 4 × R), SameOptions options s.1 →
      ∃ s' l ok, dmcGenerate a lo k s = some (s', l, ok) ∧ SameOptions options s'.1 ∧
        ∃ offs, SampleOffsets a k offs ∧ DmcLeafOK a options ⟨lo, k⟩ offs l ok := by
    intro k hk lo s hs
    obtain ⟨hn, hl⟩ := offsets_length (a := a) hk s.2
    obtain ⟨q', l, ok, h1, h2, h3⟩ := dmcGenerate_ok (a := a) hp lo k s hs hn hl
    exact ⟨_, l, ok, h1, h2, _, dmcOffsets_ok k s.2, h3⟩
  intro k
  induction k with
  | zero =>
    intro hk lo s hs
    obtain ⟨s', l, ok, h1, h2, offs, h3, h4⟩ := gen 0 hk lo s hs
    refine ⟨s', .leaf l, ?_, h2, offs, ok, h3, h4, Or.inl rfl⟩
    simp [dmcBuildNode, h1, dmcLeafNode]
  | succ k ih =>
    intro hk lo s hs
    have leaf : ∀ s : Qef K 4 × R, SameOptions options s.1 → (∀ ok, LeafReason a ⟨lo, k + 1⟩ ok) →
        ∃ s' n, dmcLeafNode (dmcGenerate a lo (k + 1) s) = some (s', n) ∧ SameOptions options s'.1 ∧
          DmcTreeOK a options n ⟨lo, k + 1⟩ := by
      intro s hs hreason
      obtain ⟨s', l, ok, h1, h2, offs, h3, h4⟩ := gen (k + 1) hk lo s hs
      exact ⟨s', .leaf l, by simp [h1, dmcLeafNode], h2, offs, ok, h3, h4, hreason ok⟩
    have split : ∀ s : Qef K 4 × R, SameOptions options s.1 → SplitReason a options ⟨lo, k + 1⟩ →
        ∃ s' n, dmcInnerNode (threadM 8 (fun i s => dmcBuildNode a k (childCorner lo k i) s) s) = some (s', n) ∧ SameOptions options s'.1 ∧
          DmcTreeOK a options n ⟨lo, k + 1⟩ := by
      intro s hs hreason
      obtain ⟨s', r, h1, h2, h3⟩ := threadM_total (fun s : Qef K 4 × R => SameOptions options s.1) 8
        (fun i n => DmcTreeOK a options n ⟨octCorner lo (2 ^ k) i, k⟩) (fun i s => dmcBuildNode a k (childCorner lo k i) s)
        (fun i s hs => by
          rw [childCorner_eq]
          obtain ⟨s', n, h1, h2, h3⟩ := ih (by omega) (octCorner lo (2 ^ k) i) s hs
          exact ⟨s', n, h1, h2, h3⟩) hs
      refine ⟨s', .inner () r, by rw [h1]; rfl, h2, hreason, ?_⟩
      intro i
      exact h3 i
    unfold dmcBuildNode
    dsimp only
    by_cases h1 : (a.flags.earlyStop && dmcShouldStop a lo (k + 1)) = true
    · rw [if_pos h1]
      rw [Bool.and_eq_true] at h1
      exact leaf s hs fun ok => Or.inr (Or.inl h1)
    rw [if_neg h1]
    rw [Bool.and_eq_true] at h1
    by_cases h2 : a.flags.simpleSplit = true
    · rw [if_pos h2]
      by_cases h3 : (decide (k + 1 = a.oct.level) || dmcShouldSplit a lo (k + 1)) = true
      · rw [if_pos h3]
        rw [Bool.or_eq_true, decide_eq_true_eq] at h3
        exact split s hs ⟨Nat.succ_pos k, h1, fun _ => h3, fun h => absurd h2 (by simp [h])⟩
      · rw [if_neg h3]
        rw [Bool.or_eq_true, decide_eq_true_eq, not_or, Bool.not_eq_true] at h3
        exact leaf s hs fun ok => Or.inr (Or.inr (Or.inl ⟨h2, h3⟩))
    · rw [if_neg h2]
      rw [Bool.not_eq_true] at h2
      have hpow : 2 ^ (k + 1) * 8 < 2 ^ a.oct.level ↔ k + 1 + 3 < a.oct.level := by
        rw [show (8 : Nat) = 2 ^ 3 by norm_num, ← pow_add]
        exact Nat.pow_lt_pow_iff_right (by norm_num)
      by_cases h3 : 2 ^ (k + 1) * 8 < 2 ^ a.oct.level
      · rw [if_pos h3]
        obtain ⟨s', l, ok, g1, g2, offs, g3, g4⟩ := gen (k + 1) hk lo s hs
        rw [g1]
        dsimp only
        cases ok with
        | true =>
          rw [if_pos rfl]
          exact ⟨s', .leaf l, rfl, g2, offs, true, g3, g4, Or.inr (Or.inr (Or.inr ⟨h2, hpow.1 h3, rfl⟩))⟩
        | false =>
          rw [if_neg (by simp)]
          exact split s' g2 ⟨Nat.succ_pos k, h1, fun h => absurd h (by simp [h2]), fun _ => Or.inr ⟨offs, l, g3, g4⟩⟩
      · rw [if_neg h3]
        exact split s hs ⟨Nat.succ_pos k, h1, fun h => absurd h (by simp [h2]), fun _ => Or.inl (by
          have := mt hpow.2 h3
          show a.oct.level ≤ k + 1 + 3
          omega)⟩

end
end Isomesh
