import Verif.Proofs.CornerQef
import Verif.Proofs.BoxCell
import Verif.Spec.Corner
import Verif.Props.EdgeNormal
import Verif.Props.DualVolume

/-! C97: vertices of dual contouring are close to the point determined by the planes of their cell. -/

namespace Isomesh
open Spec Finset Matrix

section
variable {d : Nat} {M bits : Nat} {tiny : ℝ}

/-- The solver holds exactly the planes of the list. -/
structure LoadedN (q0 q : Qef ℝ (d + 2)) (l : List (VecN ℝ (d + 2) × VecN ℝ (d + 2))) : Prop where
  rows : ∀ j k, q.A j k = (l[k]?).elim 0 fun a => (Fin.snoc (α := fun _ => ℝ) a.2 (dotProduct a.2 a.1) : Fin (d + 2 + 1) → ℝ) j
  used : q.usedRows = l.length
  sum : ∀ i, q.pointsSum i = (l.map fun a => a.1 i).sum
  count : q.pointsCount = l.length
  pinv : q.pinvTolerance = q0.pinvTolerance
  jac : q.jacobiTolerance = q0.jacobiTolerance
  iters : q.maxJacobiIters = q0.maxJacobiIters

theorem loadedN_run (hM : M < 2 ^ 32) {q0 : Qef ℝ (d + 2)} (l : List (VecN ℝ (d + 2) × VecN ℝ (d + 2))) :
    ∀ (pre : List _) (q q' : Qef ℝ (d + 2)), LoadedN q0 q pre → pre.length + l.length ≤ M →
      runOps M bits tiny q (l.map fun a => .addPlane a.1 a.2) = some q' → LoadedN q0 q' (pre ++ l) := by
  induction l with
  | nil => intro pre q q' h _ hr; cases hr; simpa using h
  | cons a l ih =>
    intro pre q q' h hlen hr
    rw [List.length_cons] at hlen
    rw [List.map_cons, runOps, List.foldlM_cons] at hr
    have ha : q.addPlane M tiny a.1 a.2 = some { q with
        A := fun c r => if r = q.usedRows then (Fin.snoc (α := fun _ => ℝ) a.2 (dotProduct a.2 a.1) : Fin (d + 2 + 1) → ℝ) c else q.A c r
        usedRows := q.usedRows + 1, pointsSum := q.pointsSum + a.1, pointsCount := u32 (q.pointsCount + 1) } := by
      unfold Qef.addPlane Qef.roomForPlane
      rw [if_neg (by rw [h.used]; omega)]
      simp only [Option.bind_eq_bind, Option.bind_some, dotN_real]
      rw [writeRow_some (by rw [h.used]; omega)]
      rfl
    simp only [QefOp.apply, ha, Option.bind_eq_bind, Option.bind_some] at hr
    have := ih (pre ++ [a]) _ q' ?_ (by simp; omega) hr
    · simpa using this
    · refine ⟨?_, ?_, ?_, ?_, h.pinv, h.jac, h.iters⟩
      · intro j k
        dsimp only
        rw [h.used]
        rcases Nat.lt_trichotomy k pre.length with hk | hk | hk
        · rw [if_neg (by omega), h.rows, List.getElem?_append_left hk]
        · subst hk; simp
        · rw [if_neg (by omega), h.rows, List.getElem?_eq_none (by omega), List.getElem?_eq_none (by simp; omega)]
      · simp [h.used]
      · intro i
        simp [h.sum]
      · dsimp only
        rw [h.count, u32_small (by omega)]
        simp

theorem list_sum_range {α : Type} (l : List α) (F : α → ℝ) : (l.map F).sum = ∑ k ∈ Finset.range l.length, (l[k]?).elim 0 F := by
  induction l with
  | nil => simp
  | cons a l ih =>
    rw [List.map_cons, List.sum_cons, List.length_cons, Finset.sum_range_succ', ih, add_comm]
    simp

theorem LoadedN.sum_rows {q0 q : Qef ℝ (d + 2)} {l : List (VecN ℝ (d + 2) × VecN ℝ (d + 2))} (h : LoadedN q0 q l) (F : (Fin (d + 2 + 1) → ℝ) → ℝ) :
    ∑ k ∈ Finset.range q.usedRows, F (fun j => q.A j k) =
      (l.map fun a => F (Fin.snoc (α := fun _ => ℝ) a.2 (dotProduct a.2 a.1))).sum := by
  rw [list_sum_range, h.used]
  apply Finset.sum_congr rfl
  intro k hk
  have hk := Finset.mem_range.1 hk
  rw [List.getElem?_eq_getElem hk, Option.elim_some]
  congr 1
  funext j
  rw [h.rows, List.getElem?_eq_getElem hk, Option.elim_some]

/-- Normal equations of the best point. -/
theorem best_normal {l : List (VecN ℝ d × VecN ℝ d)} {c : VecN ℝ d} (h : BestPoint l c) (a : Fin d) :
    (l.map fun pn => pn.2 a * ∑ i, pn.2 i * (c i - pn.1 i)).sum = 0 := by
  set L := (l.map fun pn => pn.2 a * ∑ i, pn.2 i * (c i - pn.1 i)).sum with hL
  set Q := (l.map fun pn => pn.2 a ^ 2).sum with hQ
  have hQ0 : 0 ≤ Q := by
    apply List.sum_nonneg
    intro x hx
    obtain ⟨y, -, rfl⟩ := List.mem_map.1 hx
    exact sq_nonneg _
  have hexp : ∀ t : ℝ, planesErr l (c + Pi.single a t) = planesErr l c + 2 * t * L + t ^ 2 * Q := by
    intro t
    rw [hL, hQ]
    unfold planesErr
    clear * -
    induction l with
    | nil => simp
    | cons pn l ih =>
      simp only [List.map_cons, List.sum_cons] at ih ⊢
      rw [ih]
      have : planeErr pn.1 pn.2 (c + Pi.single a t) = (∑ i, pn.2 i * (c i - pn.1 i) + pn.2 a * t) ^ 2 := by
        unfold planeErr
        congr 1
        have : ∀ i, pn.2 i * ((c + Pi.single a t : VecN ℝ d) i - pn.1 i) = pn.2 i * (c i - pn.1 i) + (if i = a then pn.2 a * t else 0) := by
          intro i
          rw [Pi.add_apply, Pi.single_apply]
          by_cases hi : i = a
          · subst hi; simp; ring
          · simp [hi]
        rw [Finset.sum_congr rfl fun i _ => this i, Finset.sum_add_distrib, Finset.sum_ite_eq' univ a, if_pos (Finset.mem_univ a)]
      rw [this]
      unfold planeErr
      ring
  have key := h (c + Pi.single a (-L / (Q + 1)))
  rw [hexp] at key
  have hQ1 : 0 < Q + 1 := by linarith
  have h1 : 2 * (-L / (Q + 1)) * L + (-L / (Q + 1)) ^ 2 * Q = -(L ^ 2 * (Q + 2)) / (Q + 1) ^ 2 := by
    field_simp
    ring
  have h2 : 0 ≤ -(L ^ 2 * (Q + 2)) / (Q + 1) ^ 2 := by linarith
  rw [le_div_iff₀ (by positivity), zero_mul] at h2
  have h3 : L ^ 2 * (Q + 2) = 0 := le_antisymm (by linarith) (by positivity)
  rcases mul_eq_zero.1 h3 with e | e
  · exact pow_eq_zero_iff (two_ne_zero) |>.1 e
  · linarith

theorem clamp_close {x lo hi c : ℝ} (h1 : lo ≤ c) (h2 : c ≤ hi) : (min (max x lo) hi - c) ^ 2 ≤ (x - c) ^ 2 := by
  rcases le_total x lo with h | h
  · rw [max_eq_right h, min_eq_left (h1.trans h2)]; nlinarith
  · rw [max_eq_left h]
    rcases le_total x hi with h' | h'
    · rw [min_eq_left h']
    · rw [min_eq_right h']; nlinarith

/-- C97 (solver): if the planes given to a solver since its last reset fit into its buffer and are spread by `m`, which is above the thresholds
used for zero, and their best point `c` is in the box, then the point returned is close to `c`: the squared distance is at most that of the
mean of the points given, times what the eigenvalue iteration may leave off the diagonal, divided by `m²`. -/
theorem C97_solver (hM : M < 2 ^ 32) {l : List (VecN ℝ (d + 2) × VecN ℝ (d + 2))} (hlen : l.length ≤ M) {m : ℝ} (ht : 0 < tiny) (hm : tiny ≤ m)
    (hspread : SpreadNormals m l) {q0 q1 q2 : Qef ℝ (d + 2)} (hp : q0.pinvTolerance ≤ m)
    (hr : runOps M bits tiny q0 (.reset :: l.map fun a => .addPlane a.1 a.2) = some q1) {lo hi x c : VecN ℝ (d + 2)}
    (hs : q1.solve M tiny lo hi = some (q2, x)) (hc : BestPoint l c) (hin : ∀ i, lo i ≤ c i ∧ c i ≤ hi i) :
    sqDist x c ≤ offDiagBound (d + 2) q0.jacobiTolerance q0.maxJacobiIters.toNat (normalWeight l) / m ^ 2 * sqDist (meanPoint l) c := by
  rw [runOps, List.foldlM_cons] at hr
  simp only [QefOp.apply, Option.bind_eq_bind, Option.bind_some] at hr
  have hL := loadedN_run (q0 := q0) hM l [] q0.reset q1 ⟨fun j k => by simp [Qef.reset], rfl, fun i => by simp [Qef.reset], rfl, rfl, rfl, rfl⟩
    (by simpa using hlen) hr
  rw [List.nil_append] at hL
  have hm0 : 0 < m := lt_of_lt_of_le ht hm
  have hsp : Spread m 0 q1.usedRows q1.A := by
    intro u _ hu
    have hsu := hspread (fun i => u i.castSucc)
    rw [Fin.sum_univ_castSucc, hu, ← Finset.range_eq_Ico]
    have e := hL.sum_rows (fun row => (∑ j, row j * u j) ^ 2)
    unfold rowDot
    rw [e]
    have : ∀ a ∈ l, (∑ j, (Fin.snoc (α := fun _ => ℝ) a.2 (dotProduct a.2 a.1) : Fin (d + 2 + 1) → ℝ) j * u j) ^ 2 = (∑ i, a.2 i * u i.castSucc) ^ 2 := by
      intro a _
      rw [Fin.sum_univ_castSucc, hu]
      simp
    rw [List.map_congr_left this]
    simpa using hsu
  obtain ⟨qc, hcomp, -, -, -, -, -, -, -, -, -, hx, -⟩ := solve_eq hs
  obtain ⟨hqc, hG, hB⟩ := compress_spread ht hm (by omega) hsp hcomp
  have hopt : qc.pinvTolerance = q0.pinvTolerance ∧ qc.jacobiTolerance = q0.jacobiTolerance ∧ qc.maxJacobiIters = q0.maxJacobiIters ∧
      (∀ i, qc.pointsSum i / (qc.pointsCount : ℝ) = meanPoint l i) := by
    refine ⟨?_, ?_, ?_, fun i => ?_⟩
    · rw [hqc]; exact hL.pinv
    · rw [hqc]; exact hL.jac
    · rw [hqc]; exact hL.iters
    · have e1 : qc.pointsSum = q1.pointsSum := by rw [hqc]
      have e2 : qc.pointsCount = q1.pointsCount := by rw [hqc]
      rw [e1, e2, hL.sum, hL.count]; rfl
  set S := qc.leftMat.transpose * qc.leftMat with hS
  have hSab : ∀ a b, S a b = (l.map fun pn => pn.2 a * pn.2 b).sum := by
    intro a b
    rw [hG]
    unfold colDot
    rw [← Finset.range_eq_Ico, hL.sum_rows (fun row => row a.castSucc * row b.castSucc)]
    simp
  have hSym : ∀ p q, S p q = S q p := by
    intro p q
    rw [hSab, hSab]
    congr 1
    apply List.map_congr_left
    intro a _; ring
  have hSu : ∀ u : VecN ℝ (d + 2), u ⬝ᵥ (S *ᵥ u) = (l.map fun pn => (∑ i, pn.2 i * u i) ^ 2).sum := by
    intro u
    have : u ⬝ᵥ (S *ᵥ u) = ∑ a, ∑ b, u a * S a b * u b := by
      unfold dotProduct
      apply Finset.sum_congr rfl
      intro a _
      rw [Matrix.mulVec, dotProduct, Finset.mul_sum]
      exact Finset.sum_congr rfl fun b _ => by ring
    rw [this]
    simp only [hSab]
    clear * -
    induction l with
    | nil => simp
    | cons pn l ih =>
      simp only [List.map_cons, List.sum_cons]
      rw [← ih]
      have : (∑ i, pn.2 i * u i) ^ 2 = ∑ a, ∑ b, u a * (pn.2 a * pn.2 b) * u b := by
        rw [pow_two, Finset.sum_mul_sum]
        exact Finset.sum_congr rfl fun a _ => Finset.sum_congr rfl fun b _ => by ring
      rw [this, ← Finset.sum_add_distrib]
      apply Finset.sum_congr rfl
      intro a _
      rw [← Finset.sum_add_distrib]
      exact Finset.sum_congr rfl fun b _ => by ring
  have hSm : ∀ u : VecN ℝ (d + 2), m * u ⬝ᵥ u ≤ u ⬝ᵥ (S *ᵥ u) := by
    intro u
    rw [hSu]
    have e : u ⬝ᵥ u = ∑ i, u i ^ 2 := Finset.sum_congr rfl fun i _ => by ring
    rw [e]
    exact hspread u
  -- normal equations
  have hbeq : (qc.leftMat.transpose *ᵥ fun r : Fin (d + 2) => qc.A (Fin.last (d + 2)) r) = S *ᵥ c := by
    funext a
    rw [hB]
    unfold colDot
    rw [← Finset.range_eq_Ico, hL.sum_rows (fun row => row a.castSucc * row (Fin.last (d + 2)))]
    simp only [Fin.snoc_castSucc, Fin.snoc_last]
    have hn := best_normal hc a
    have e : (S *ᵥ c) a = (l.map fun pn => pn.2 a * ∑ i, pn.2 i * c i).sum := by
      rw [Matrix.mulVec, dotProduct]
      simp only [hSab]
      clear * -
      induction l with
      | nil => simp
      | cons pn l ih =>
        simp only [List.map_cons, List.sum_cons]
        rw [← ih, Finset.mul_sum, ← Finset.sum_add_distrib]
        exact Finset.sum_congr rfl fun b _ => by ring
    rw [e]
    have e2 : (l.map fun pn => pn.2 a * ∑ i, pn.2 i * (c i - pn.1 i)).sum =
        (l.map fun pn => pn.2 a * ∑ i, pn.2 i * c i).sum - (l.map fun pn => pn.2 a * pn.2 ⬝ᵥ pn.1).sum := by
      clear * -
      induction l with
      | nil => simp
      | cons pn l ih =>
        simp only [List.map_cons, List.sum_cons]
        rw [ih]
        have : ∑ i, pn.2 i * (c i - pn.1 i) = ∑ i, pn.2 i * c i - pn.2 ⬝ᵥ pn.1 := by
          unfold dotProduct
          rw [← Finset.sum_sub_distrib]
          exact Finset.sum_congr rfl fun i _ => by ring
        rw [this]; ring
    rw [e2] at hn
    linarith
  obtain ⟨D, -, hDe, hSD, hE', hE, -, -, hoff⟩ := jacobi_spec S hSym qc.jacobiTolerance qc.maxJacobiIters qc.fast
  set eE := jacobi (fun c r => S r c) qc.jacobiTolerance qc.maxJacobiIters qc.fast with heE
  set E : Matrix (Fin (d + 2)) (Fin (d + 2)) ℝ := Matrix.of fun r c => eE.2 c r with hEd
  obtain ⟨hdiag, hclose⟩ := approx_pinv hE hE' hSD hm0 hSm
  have hpd : Qef.pinvDiag qc.pinvTolerance eE.1 = Matrix.diagonal fun i => 1 / D i i := by
    rw [pinvDiag_of]
    ext r s
    rw [Matrix.of_apply, Matrix.diagonal_apply, ← hDe r]
    have h1 := hdiag r
    rw [abs_of_nonneg (hm0.le.trans h1), if_pos (show D r r ≥ qc.pinvTolerance by rw [hopt.1]; linarith)]
  have hun : qc.unclamped = (E * Matrix.diagonal (fun i => 1 / D i i) * E.transpose) *ᵥ (S *ᵥ c - S *ᵥ meanPoint l) + meanPoint l := by
    rw [unclamped_real]
    dsimp only
    rw [← hS, ← heE, ← hEd, hpd, hbeq]
    have : (fun i => qc.pointsSum i / (qc.pointsCount : ℝ)) = meanPoint l := funext hopt.2.2.2
    rw [this]
  have hfin := hclose c (meanPoint l)
  dsimp only at hfin
  rw [← hun] at hfin
  have hsd : ∀ a b : VecN ℝ (d + 2), (a - b) ⬝ᵥ (a - b) = sqDist a b := by
    intro a b
    unfold sqDist dotProduct
    exact Finset.sum_congr rfl fun i _ => by rw [Pi.sub_apply]; ring
  rw [hsd, hsd] at hfin
  have hclamp : sqDist x c ≤ sqDist qc.unclamped c := by
    rw [hx]
    exact Finset.sum_le_sum fun i _ => clamp_close (hin i).1 (hin i).2
  refine hclamp.trans (hfin.trans ?_)
  have hnn : 0 ≤ sqDist (meanPoint l) c := Finset.sum_nonneg fun i _ => sq_nonneg _
  apply mul_le_mul_of_nonneg_right _ hnn
  apply div_le_div_of_nonneg_right _ (by positivity)
  unfold offDiagBound
  rw [hopt.2.1, hopt.2.2.1] at hoff
  rcases hoff with h | h
  · refine le_max_of_le_left (offSq_le fun p q hpq => ?_)
    have := h p q hpq
    rw [← sq_abs]
    exact pow_le_pow_left₀ (abs_nonneg _) this 2
  · refine le_max_of_le_right (h.trans ?_)
    have hbase : (0 : ℝ) ≤ 1 - 2 / (((d + 2 : Nat) : ℝ) * (((d + 2 : Nat) : ℝ) - 1)) := by
      push_cast
      have hd0 : (0 : ℝ) ≤ d := Nat.cast_nonneg d
      have hpos : (0 : ℝ) < ((d : ℝ) + 2) * ((d : ℝ) + 2 - 1) := by nlinarith
      rw [sub_nonneg, div_le_one hpos]
      nlinarith
    apply mul_le_mul_of_nonneg_left _ (pow_nonneg hbase _)
    have hle : offSq S ≤ frobSq S := by
      rw [frobSq_split]
      have : 0 ≤ ∑ p, S p p ^ 2 := Finset.sum_nonneg fun p _ => sq_nonneg _
      linarith
    refine hle.trans ?_
    have htr : ∑ p, S p p = normalWeight l := by
      unfold normalWeight
      simp only [hSab]
      clear * -
      induction l with
      | nil => simp
      | cons pn l ih =>
        simp only [List.map_cons, List.sum_cons, Finset.sum_add_distrib]
        rw [ih]
        congr 1
        exact Finset.sum_congr rfl fun i _ => by ring
    have hcs : ∀ p q, S p q ^ 2 ≤ S p p * S q q := by
      intro p q
      have e : ∀ a b, S a b = ∑ r, qc.leftMat r a * qc.leftMat r b := by
        intro a b
        rw [hS, Matrix.mul_apply]; rfl
      rw [e, e, e]
      have := cauchy_row (fun r => qc.leftMat r p) (fun r => qc.leftMat r q)
      refine this.trans (le_of_eq ?_)
      congr 1 <;> exact Finset.sum_congr rfl fun i _ => by ring
    rw [← htr, pow_two, Finset.sum_mul_sum]
    unfold frobSq
    exact Finset.sum_le_sum fun p _ => Finset.sum_le_sum fun q _ => hcs p q

end

/-! ### Permutations -/

section
variable {d : Nat} {l l' : List (VecN ℝ d × VecN ℝ d)}

theorem planesErr_perm (h : l.Perm l') (y : VecN ℝ d) : planesErr l y = planesErr l' y := (h.map _).sum_eq

theorem best_perm (h : l.Perm l') {c : VecN ℝ d} (hb : BestPoint l c) : BestPoint l' c := fun y => by
  rw [← planesErr_perm h, ← planesErr_perm h]; exact hb y

theorem spread_perm (h : l.Perm l') {m : ℝ} (hs : SpreadNormals m l) : SpreadNormals m l' := fun u => by
  rw [← (h.map _).sum_eq]; exact hs u

theorem meanPoint_perm (h : l.Perm l') : meanPoint l = meanPoint l' := by
  funext i
  unfold meanPoint
  rw [(h.map _).sum_eq, h.length_eq]

end

/-- The stored normals have length one. -/
theorem edgeNormal_unit {eps : ℝ} (h : 0 ≤ eps) (v : Vec3 ℝ) : ∑ i, (edgeNormal eps v).toVecN i ^ 2 = 1 := by
  have hsum : ∀ w : Vec3 ℝ, ∑ i, w.toVecN i ^ 2 = w.x ^ 2 + w.y ^ 2 + w.z ^ 2 := by
    intro w
    rw [Fin.sum_univ_three]; rfl
  rw [hsum]
  rcases h.eq_or_lt with rfl | hpos
  · have h0 := length_nonneg v
    have h1 := length_sq v
    have hle : (packNormal 0 v).nx ^ 2 + (packNormal 0 v).nz ^ 2 ≤ 1 := by
      simp only [packNormal, div_pow, add_zero]
      rw [← add_div]
      rcases h0.eq_or_lt with e | e
      · rw [← e]; norm_num
      · rw [div_le_one (by positivity)]
        nlinarith [sq_nonneg v.y]
    have h2 : max 0 (1 - (packNormal 0 v).nx * (packNormal 0 v).nx - (packNormal 0 v).nz * (packNormal 0 v).nz) =
        1 - (packNormal 0 v).nx ^ 2 - (packNormal 0 v).nz ^ 2 := by
      rw [max_eq_right] <;> nlinarith
    unfold edgeNormal PackedNormal.surfaceNormal
    simp only [h2]
    split
    · rw [neg_sq, elem_sqrt, Real.sq_sqrt (by linarith)]; ring
    · rw [elem_sqrt, Real.sq_sqrt (by linarith)]; ring
  · exact C40_unit hpos v

theorem edgePlanes_weight {eps : ℝ} (h : 0 ≤ eps) (es : List (GridEdge ℝ)) : normalWeight (edgePlanes eps es) = es.length := by
  unfold normalWeight edgePlanes
  rw [List.map_map]
  have : ((fun pn : VecN ℝ 3 × VecN ℝ 3 => ∑ i, pn.2 i ^ 2) ∘ fun e : GridEdge ℝ => (e.surfacePoint.toVecN, (edgeNormal eps e.gradient).toVecN)) =
      fun _ => 1 := by
    funext e
    exact edgeNormal_unit h _
  rw [this]
  simp

/-- The planes of a list of edges, solved in a cell. -/
theorem edges_close {env : DcEnv ℝ} {P : IVec3} {es es' : List (GridEdge ℝ)} {solver q0 q1 q2 : Qef ℝ 3} {m : ℝ} {x c : VecN ℝ 3}
    (ho : SharpOptions env solver m) (h1 : q0.pinvTolerance = solver.pinvTolerance) (h2 : q0.jacobiTolerance = solver.jacobiTolerance)
    (h3 : q0.maxJacobiIters = solver.maxJacobiIters) (hperm : es.Perm es') (hc : CornerAt env.eps P m es c)
    (hr : runOps qef3Rows 30 env.tiny q0 (.reset :: es'.map (planeOp env.eps)) = some q1)
    (hs : q1.solve qef3Rows env.tiny (cellLo P) (cellHi P) = some (q2, x)) : CloseTo solver m env.eps es x c := by
  have hpp : (edgePlanes env.eps es).Perm (edgePlanes env.eps es') := hperm.map _
  have hops : es'.map (planeOp env.eps) = (edgePlanes env.eps es').map fun a => QefOp.addPlane a.1 a.2 := by
    unfold edgePlanes
    rw [List.map_map]; rfl
  rw [hops] at hr
  have key := C97_solver (d := 1) (M := qef3Rows) (by unfold qef3Rows; norm_num) (l := edgePlanes env.eps es')
    (by unfold edgePlanes; rw [List.length_map, ← hperm.length_eq]; exact hc.few) ho.tiny ho.tiny_le (spread_perm hpp hc.spread)
    (by rw [h1]; exact ho.pinv) hr hs (best_perm hpp hc.best) hc.inside
  unfold CloseTo
  rw [edgePlanes_weight ho.eps, h2, h3, ← hperm.length_eq, ← meanPoint_perm hpp] at key
  exact key

/-- C97 (vertex of a cell). -/
theorem vertex_close {env : DcEnv ℝ} {g : Grid ℝ} {solver : Qef ℝ 3} {P : IVec3} {v : MeshVertex ℝ} (h : DualVertex env g solver P v)
    {es : List (GridEdge ℝ)} (hes : StoredEdges g P es) {m : ℝ} (ho : SharpOptions env solver m) {c : VecN ℝ 3} (hc : CornerAt env.eps P m es c) :
    CloseTo solver m env.eps es v.position.toVecN c := by
  obtain ⟨es', q0, q1, q2, x, k1, k2, k3, k4, k5, k6, -⟩ := h.solution
  have hperm : es.Perm es' := (List.perm_ext_iff_of_nodup hes.1 k1).2 fun e => by rw [hes.2, k2]
  rw [k6]
  exact edges_close ho k3.1 k3.2.1 k3.2.2.1 hperm hc k4 k5

/-- C97 (uniform dual contouring): the mesh has one vertex for each crossing cell; if the planes of the cell are at most eight and determine a point
of the cell, the vertex is close to this point. -/
theorem C97_uniform {env : DcEnv ℝ} {g : Grid ℝ} (hF : Filled g) (hsort : IsSort env.srt) {solver q : Qef ℝ 3} (hpinv : 0 < solver.pinvTolerance)
    {r : PlacedMesh ℝ} (hr : dualContouring env g solver = some (q, r)) {cells : List IVec3} (hcells : CellList g cells) :
    r.mesh.vertices.length = cells.length ∧ ∀ (k : Nat) (P : IVec3), cells[k]? = some P → ∃ v, r.mesh.vertices[k]? = some v ∧
      ∀ es m c, StoredEdges g P es → SharpOptions env solver m → CornerAt env.eps P m es c → CloseTo solver m env.eps es v.position.toVecN c := by
  obtain ⟨-, q', r', hr', -, -, -, hv⟩ := C18_vertices (env := env) hF hsort hpinv
  rw [hr] at hr'; cases hr'
  obtain ⟨h1, h2⟩ := hv cells hcells
  refine ⟨h1, fun k P hk => ?_⟩
  obtain ⟨v, hv, hD⟩ := h2 k P hk
  exact ⟨v, hv, fun es m c hes ho hc => vertex_close hD hes ho hc⟩

/-- C97 (octree dual contouring without simplification): the same for the crossing cells of the root cube. -/
theorem C97_octree {env : DcEnv ℝ} {g : Grid ℝ} (hF : Filled g) {o o' o'' : DcOctree ℝ} {solver q' : Qef ℝ 3} (hpinv : 0 < solver.pinvTolerance)
    {epsilon : ℝ} (hin : CubeIn g.maxCoord (rootCube o.level)) (hb : o.build env g solver epsilon false = some (q', o'))
    {r : PlacedMesh ℝ} (hc : o'.contour = some (r, o'')) :
    ∃ cells : List IVec3, cells.Nodup ∧ (∀ P, P ∈ cells ↔ CrossingCell g P ∧ (rootCube o.level).Has P) ∧ r.mesh.vertices.length = cells.length ∧
      ∀ (k : Nat) (P : IVec3), cells[k]? = some P → ∃ v, r.mesh.vertices[k]? = some v ∧
        ∀ es m c, StoredEdges g P es → SharpOptions env solver m → CornerAt env.eps P m es c → CloseTo solver m env.eps es v.position.toVecN c := by
  obtain ⟨q1, o1, o2, r', cells, edges, hb', hc', hnd, hcells, hverts, -⟩ := C23_unsimplified (env := env) hF o (solver := solver) epsilon hin hpinv
  rw [hb] at hb'; cases hb'
  rw [hc] at hc'; cases hc'
  have hflat : ∀ c ∈ cells, c = (⟨c.lo, 0⟩ : Cube) := by
    intro c hcm
    obtain ⟨P, e, -⟩ := (hcells c).1 hcm
    rw [e]
  refine ⟨cells.map Cube.lo, ?_, fun P => ?_, ?_, fun k P hk => ?_⟩
  · refine hnd.map_on fun a ha b hb e => ?_
    rw [hflat a ha, hflat b hb, e]
  · rw [List.mem_map]
    constructor
    · rintro ⟨c, hcm, rfl⟩
      obtain ⟨P, e, h1, h2⟩ := (hcells c).1 hcm
      rw [e]; exact ⟨h1, h2⟩
    · intro h
      exact ⟨⟨P, 0⟩, (hcells _).2 ⟨P, rfl, h⟩, rfl⟩
  · rw [List.length_map]; exact hverts.length_eq.symm
  · rw [List.getElem?_map, Option.map_eq_some_iff] at hk
    obtain ⟨cb, hcb, rfl⟩ := hk
    obtain ⟨hk1, rfl⟩ := List.getElem?_eq_some_iff.1 hcb
    have hk2 : k < r.mesh.vertices.length := by rw [← hverts.length_eq]; exact hk1
    exact ⟨_, List.getElem?_eq_getElem hk2, fun es m c hes ho hc =>
      vertex_close ((List.forall₂_iff_get.1 hverts).2 k hk1 hk2) hes ho hc⟩

/-- C97 (MDC octree): every vertex of the mesh made with a negative error bound, after any earlier `contour` calls, belongs to one sheet of the
surface in one cell; if the planes of this sheet are at most eight and determine a point of the cell, the vertex is close to this point. -/
theorem C97_mdc {env : DcEnv ℝ} {g : Grid ℝ} (hF : Filled g) {o o' o1 o2 : MdcOctree ℝ} {solver q' : Qef ℝ 3}
    (hsc : o.globalScale ≠ 0) (hin : CubeIn g.maxCoord (rootCube o.level)) (hsz : 4 * crossingCells g (rootCube o.level) + 3 < 2 ^ 32)
    (hb : o.build env g solver = some (q', o')) {bounds : List ℝ} (h1 : contourAll o' bounds = some o1) {ε : ℝ} (hε : ε < 0)
    {r : PlacedMesh ℝ} (h2 : o1.contour ε = some (r, o2)) (k : Nat) (v : MeshVertex ℝ) (hv : r.mesh.vertices[k]? = some v) :
    ∃ (P : IVec3) (x : LEdge), CrossingOf g P x ∧ (rootCube o.level).Has P ∧
      ∀ es m c, SheetEdges g P x es → SharpOptions env solver m → CornerAt env.eps P m es c → CloseTo solver m env.eps es v.position.toVecN c := by
  obtain ⟨M, V, hS, hall⟩ := C28_contour hF hin hsz (mul_self_pos.2 hsc) hb
  obtain ⟨o1', e1, e2⟩ := hall bounds
  rw [h1] at e1; cases e1
  obtain ⟨o2', e3⟩ := e2 ε
  rw [h2] at e3; cases e3
  obtain ⟨cb, w, hd, hw, hvw, -, hfit⟩ := hS.fit ε k v hv
  have hk : cb.k = 0 := by
    rcases hfit with hk | hwe
    · exact hk
    · obtain ⟨q1, hq⟩ := fit_box hw
      have := box_error hq
      have : ε / (o.globalScale * o.globalScale) < 0 := div_neg_of_neg_of_pos hε (mul_self_pos.2 hsc)
      linarith
  have hpos : v.position = w.position := by rw [hvw]
  cases hw with
  | @cell P X w es' q1 ps k1 k2 k3 k4 k5 =>
    obtain ⟨x, hx, hX⟩ := k1
    obtain ⟨q2, y, q3, m1, m2, m3, m4⟩ := k5
    have hy : v.position.toVecN = y := by rw [hpos, m2]; funext i; fin_cases i <;> rfl
    obtain ⟨hxc, hxo, -⟩ := (hX x).1 hx
    refine ⟨P, x.edge, hxo, ?_, fun es m c hes ho hc => ?_⟩
    · have := hx.1.1
      rw [hxc] at this
      exact this
    have hperm : es.Perm es' := (List.perm_ext_iff_of_nodup hes.1 k2).2 fun e => by
      rw [hes.2, k3, hX]
      constructor
      · rintro ⟨n1, n2, n3⟩
        exact ⟨n1, rfl, ⟨(hF.edge_iff _ _).1 ⟨e, (mem_edgeList hF).1 n1, rfl⟩, n2⟩, n3⟩
      · rintro ⟨n1, -, n2, n3⟩
        exact ⟨n1, n2.2, n3⟩
    rw [hy]
    refine edges_close ho rfl rfl rfl hperm hc k4 (q2 := q2) ?_
    have e2 : cellHi (K := ℝ) P = ![((P.x + 2 ^ 0 : Int) : ℝ), ((P.y + 2 ^ 0 : Int) : ℝ), ((P.z + 2 ^ 0 : Int) : ℝ)] := by
      unfold cellHi; push_cast; simp
    rw [e2]; exact m1
  | @node c X w kids q1 k1 k2 k3 =>
    exfalso
    obtain ⟨kd, hkd⟩ := List.exists_mem_of_ne_nil kids k1
    have := (k3 kd hkd).2
    rw [hk] at this
    exact absurd this (Nat.not_lt_zero _)

/-- C97 (sharp corners): a common point of all planes is the best point. -/
theorem C97_common {d : Nat} {l : List (VecN ℝ d × VecN ℝ d)} {c : VecN ℝ d} (h : ∀ pn ∈ l, ∑ i, pn.2 i * (c i - pn.1 i) = 0) : BestPoint l c := by
  intro y
  have h0 : planesErr l c = 0 := by
    unfold planesErr
    apply List.sum_eq_zero
    intro x hx
    obtain ⟨pn, hpn, rfl⟩ := List.mem_map.1 hx
    unfold planeErr
    rw [h pn hpn]; norm_num
  rw [h0]
  apply List.sum_nonneg
  intro x hx
  obtain ⟨pn, -, rfl⟩ := List.mem_map.1 hx
  exact sq_nonneg _

/-- C97 (limit): the distance gets as small as wanted with a smaller tolerance and more iterations. -/
theorem C97_limit {m δ : ℝ} (hm : 0 < m) (hδ : 0 < δ) : ∃ τ > 0, ∃ N : Nat, ∀ tol iters, |tol| ≤ τ → N ≤ iters → ∀ k : Nat, k ≤ 8 →
    offDiagBound 3 tol iters k / m ^ 2 ≤ δ := by
  have hε : 0 < δ * m ^ 2 := by positivity
  refine ⟨Real.sqrt (δ * m ^ 2 / 6), Real.sqrt_pos.2 (by positivity), ?_⟩
  obtain ⟨N, hN⟩ := exists_pow_lt_of_lt_one (show (0 : ℝ) < δ * m ^ 2 / 64 by positivity) (show (2 / 3 : ℝ) < 1 by norm_num)
  refine ⟨N, fun tol iters ht hi k hk => ?_⟩
  rw [div_le_iff₀ (by positivity)]
  unfold offDiagBound
  apply max_le
  · have h1 : tol ^ 2 ≤ δ * m ^ 2 / 6 := by
      rw [← sq_abs, ← Real.sq_sqrt (show 0 ≤ δ * m ^ 2 / 6 by positivity)]
      exact pow_le_pow_left₀ (abs_nonneg _) ht 2
    push_cast
    linarith
  · have h1 : (1 - 2 / (((3 : Nat) : ℝ) * (((3 : Nat) : ℝ) - 1))) = 2 / 3 := by norm_num
    rw [h1]
    have h2 : (2 / 3 : ℝ) ^ iters ≤ (2 / 3) ^ N := pow_le_pow_of_le_one (by norm_num) (by norm_num) hi
    have h3 : (k : ℝ) ^ 2 ≤ 64 := by
      have : (k : ℝ) ≤ 8 := by exact_mod_cast hk
      have h0 : (0 : ℝ) ≤ k := Nat.cast_nonneg k
      nlinarith
    have h4 : (0 : ℝ) < (2 / 3) ^ iters := by positivity
    calc (2 / 3 : ℝ) ^ iters * (k : ℝ) ^ 2 ≤ (δ * m ^ 2 / 64) * 64 :=
          mul_le_mul (h2.trans hN.le) h3 (sq_nonneg _) (by positivity)
      _ = δ * m ^ 2 := by ring

end Isomesh
