import Mathlib.LinearAlgebra.Matrix.Rank
import Verif.Proofs.NearQef
import Verif.Proofs.Order
import Verif.Props.Corner
import Verif.Spec.Near

/-! C98: the points found by the solvers are nearly optimal, whatever the planes. -/

namespace Isomesh
open Spec Finset Matrix

section
variable {d : Nat} {M bits : Nat} {tiny : ℝ}

theorem gapFactor_mono {π ρ ρ' : ℝ} (hπ : 0 < π) (h0 : 0 ≤ ρ) (h : ρ ≤ ρ') : gapFactor π ρ ≤ gapFactor π ρ' := by
  unfold gapFactor
  have h1 : ρ / π ≤ ρ' / π := div_le_div_of_nonneg_right h hπ.le
  have h2 : ρ / π ^ 2 + 1 ≤ ρ' / π ^ 2 + 1 := by
    have := div_le_div_of_nonneg_right h (pow_pos hπ 2).le
    linarith
  have h3 : Real.sqrt ρ * (ρ / π ^ 2 + 1) ≤ Real.sqrt ρ' * (ρ' / π ^ 2 + 1) :=
    mul_le_mul (Real.sqrt_le_sqrt h) h2 (by positivity) (Real.sqrt_nonneg _)
  linarith

/-- Trace of the normal matrix. -/
theorem ls_weight (A : Matrix (Fin d) (Fin d) ℝ) (b : Fin d → ℝ) (k : ℝ) :
    errWeight (fun y => (A *ᵥ y - b) ⬝ᵥ (A *ᵥ y - b) + k) = ∑ p, (A.transpose * A) p p := by
  unfold errWeight
  apply Finset.sum_congr rfl
  intro i _
  have e : (A.transpose * A) i i = (A *ᵥ Pi.single i 1) ⬝ᵥ (A *ᵥ Pi.single i 1) := by
    rw [dot_mulVec_left, Matrix.mulVec_mulVec]
    simp
  rw [e]
  dsimp only
  rw [Matrix.mulVec_neg, Matrix.mulVec_zero]
  set u := A *ᵥ Pi.single i 1
  simp only [sub_dotProduct, dotProduct_sub, neg_dotProduct, dotProduct_neg, zero_dotProduct, dotProduct_zero]
  rw [dotProduct_comm b u]
  ring

/-- What `solve` leaves off the diagonal. -/
theorem offDiag_le (S : Matrix (Fin (d + 2)) (Fin (d + 2)) ℝ) (hcs : ∀ p q, S p q ^ 2 ≤ S p p * S q q) {D : Matrix (Fin (d + 2)) (Fin (d + 2)) ℝ}
    {tol : ℝ} {iters : Nat} (hoff : (∀ i j, i ≠ j → |D i j| ≤ tol) ∨
      offSq D ≤ (1 - 2 / (((d + 2 : Nat) : ℝ) * (((d + 2 : Nat) : ℝ) - 1))) ^ iters * offSq S) :
    offSq D ≤ offDiagBound (d + 2) tol iters (∑ p, S p p) := by
  unfold offDiagBound
  rcases hoff with h | h
  · refine le_max_of_le_left (offSq_le fun p q hpq => ?_)
    have := h p q hpq
    rw [← sq_abs]
    exact pow_le_pow_left₀ (abs_nonneg _) this 2
  · refine le_max_of_le_right (h.trans ?_)
    have hbase : (0 : ℝ) ≤ 1 - 2 / (((d + 2 : Nat) : ℝ) * (((d + 2 : Nat) : ℝ) - 1)) := by
      push_cast
      have hd0 : (0 : ℝ) ≤ d := Nat.cast_nonneg d
      have hpos : (0 : ℝ) < ((d : ℝ) + 2) * ((d : ℝ) + 2 - 1) := by nlinarith
      rw [sub_nonneg, div_le_one hpos]
      nlinarith
    apply mul_le_mul_of_nonneg_left _ (pow_nonneg hbase _)
    have hle : offSq S ≤ frobSq S := by
      rw [frobSq_split]
      have : 0 ≤ ∑ p, S p p ^ 2 := Finset.sum_nonneg fun p _ => sq_nonneg _
      linarith
    refine hle.trans ?_
    rw [pow_two, Finset.sum_mul_sum]
    unfold frobSq
    exact Finset.sum_le_sum fun p _ => Finset.sum_le_sum fun q _ => hcs p q

theorem gram_cs (A : Matrix (Fin d) (Fin d) ℝ) (p q : Fin d) : (A.transpose * A) p q ^ 2 ≤ (A.transpose * A) p p * (A.transpose * A) q q := by
  have e : ∀ a b, (A.transpose * A) a b = ∑ r, A r a * A r b := by
    intro a b
    rw [Matrix.mul_apply]; rfl
  rw [e, e, e]
  have := cauchy_row (fun r => A r p) (fun r => A r q)
  refine this.trans (le_of_eq ?_)
  congr 1 <;> exact Finset.sum_congr rfl fun i _ => by ring

/-- The point is not clamped if it is strictly inside the box. -/
theorem clamp_inside {y lo hi : VecN ℝ d} (h : ∀ i, lo i < Qef.clampV y lo hi i ∧ Qef.clampV y lo hi i < hi i) : Qef.clampV y lo hi = y := by
  funext i
  have hi' := h i
  unfold Qef.clampV at hi' ⊢
  have h2 : max (y i) (lo i) < hi i := by
    by_contra hcon
    rw [min_eq_right (not_lt.1 hcon)] at hi'
    exact lt_irrefl _ hi'.2
  rw [min_eq_left h2.le] at hi' ⊢
  rcases le_total (lo i) (y i) with h3 | h3
  · exact max_eq_left h3
  · rw [max_eq_right h3] at hi'
    exact absurd hi'.1 (lt_irrefl _)

theorem solve_near (ht : 0 < tiny) {q q' : Qef ℝ (d + 2)} (hq : QInv M q) (hc : CompressClean tiny q) (hpinv : 0 < q.pinvTolerance)
    {lo hi x : VecN ℝ (d + 2)} (h : q.solve M tiny lo hi = some (q', x)) (hbox : ∀ i, lo i < x i ∧ x i < hi i) :
    NearlyLeast q (qerr q) (massPoint q) x := by
  intro c hbest
  obtain ⟨q1, h1, -, -, -, -, -, -, -, -, -, e9, -⟩ := solve_eq h
  obtain ⟨-, a2, a3, a4, -, a6⟩ := compress_spec ht hq hc h1
  have herr : ∀ y, qerr q y = _ := fun y => (a3 y).symm.trans (compressed_err a2 a4 y)
  have hx : x = q1.unclamped := by
    rw [e9] at hbox ⊢
    exact clamp_inside hbox
  have hopt : q1.pinvTolerance = q.pinvTolerance ∧ q1.jacobiTolerance = q.jacobiTolerance ∧ q1.maxJacobiIters = q.maxJacobiIters ∧
      massPoint q1 = massPoint q := by
    rw [a6]; exact ⟨rfl, rfl, rfl, rfl⟩
  set A := q1.leftMat with hA
  set b : Fin (d + 2) → ℝ := fun r => q1.A (Fin.last (d + 2)) r with hb
  have hls := least_squares (M := A) (b := b) (c := c) (fun y => by
    have := hbest y
    rw [herr, herr] at this
    linarith)
  set S := A.transpose * A with hS
  have hSym : ∀ p q, S p q = S q p := by
    intro p q
    simp only [hS, Matrix.mul_apply, Matrix.transpose_apply]
    exact Finset.sum_congr rfl fun _ _ => mul_comm _ _
  obtain ⟨D, -, hDe, hSD, hE', hE, -, -, hoff⟩ := jacobi_spec S hSym q1.jacobiTolerance q1.maxJacobiIters q1.fast
  set eE := jacobi (fun c r => S r c) q1.jacobiTolerance q1.maxJacobiIters q1.fast with heE
  set E : Matrix (Fin (d + 2)) (Fin (d + 2)) ℝ := Matrix.of fun r c => eE.2 c r with hEd
  have hpd : Qef.pinvDiag q1.pinvTolerance eE.1 = Matrix.diagonal (fun i => if |D i i| ≥ q1.pinvTolerance then 1 / D i i else 0) := by
    ext r s
    simp [Qef.pinvDiag, Matrix.diagonal_apply, fabs_abs, hDe]
  have key := approx_gap (σ := fun i => if |D i i| ≥ q1.pinvTolerance then 1 / D i i else 0) hE hE' hSD (fun u => by
    rw [hS, ← Matrix.mulVec_mulVec, ← dot_mulVec_left]; exact dot_self_nonneg _) (by rw [hopt.1]; exact hpinv) (fun i => rfl) c (massPoint q1)
  have hun : q1.unclamped = (E * Matrix.diagonal (fun i => if |D i i| ≥ q1.pinvTolerance then 1 / D i i else 0) * E.transpose) *ᵥ
      (S *ᵥ c - S *ᵥ massPoint q1) + massPoint q1 := by
    rw [← hpd, ← hls.1, unclamped_real]
    rfl
  dsimp only at key
  rw [← hun, ← hx] at key
  have hw : errWeight (qerr q) = ∑ p, S p p := by
    have : qerr q = fun y => (A *ᵥ y - b) ⬝ᵥ (A *ᵥ y - b) + q1.A (Fin.last (d + 2)) (d + 2) ^ 2 := funext herr
    rw [this, ls_weight]
  have hbnd := offDiag_le S (gram_cs A) hoff
  rw [hopt.2.1, hopt.2.2.1, ← hw] at hbnd
  have hgap := gapFactor_mono hpinv (offSq_nonneg D) hbnd
  have hsd : (massPoint q1 - c) ⬝ᵥ (massPoint q1 - c) = sqDist (massPoint q) c := by
    rw [hopt.2.2.2]
    unfold sqDist dotProduct
    exact Finset.sum_congr rfl fun i _ => by rw [Pi.sub_apply]; ring
  rw [hsd, hopt.1] at key
  have hnn : 0 ≤ sqDist (massPoint q) c := Finset.sum_nonneg fun i _ => sq_nonneg _
  have := mul_le_mul_of_nonneg_right hgap hnn
  rw [herr, herr, hls.2 x]
  unfold gapFactor at this ⊢
  linarith

/-- The error function of a solver has a least value. -/
theorem least_exists (ht : 0 < tiny) (hM : d + 1 ≤ M) {q : Qef ℝ d} (hq : QInv M q) (hc : CompressClean tiny q) : ∃ c, LeastAt (qerr q) c := by
  have hcm : ∃ q1, q.compressMatrix M tiny = some q1 := by
    unfold Qef.compressMatrix householder
    rw [if_pos ⟨hq.rows, hM⟩]
    exact ⟨_, rfl⟩
  obtain ⟨q1, h1⟩ := hcm
  obtain ⟨-, a2, a3, a4, -, -⟩ := compress_spec ht hq hc h1
  have herr : ∀ y, qerr q y = _ := fun y => (a3 y).symm.trans (compressed_err a2 a4 y)
  set A := q1.leftMat with hA
  set b : Fin d → ℝ := fun r => q1.A (Fin.last d) r with hb
  have hrange : LinearMap.range (A.transpose * A).mulVecLin = LinearMap.range A.transpose.mulVecLin := by
    apply Submodule.eq_of_le_of_finrank_eq
    · rintro _ ⟨y, rfl⟩
      exact ⟨A *ᵥ y, by simp⟩
    · have h1 := Matrix.rank_transpose_mul_self A
      have h2 := Matrix.rank_transpose A
      unfold Matrix.rank at h1 h2
      rw [h1, h2]
  obtain ⟨c, hc⟩ : A.transpose *ᵥ b ∈ LinearMap.range (A.transpose * A).mulVecLin := by
    rw [hrange]; exact ⟨b, rfl⟩
  refine ⟨c, fun y => ?_⟩
  rw [herr, herr]
  have hg : A.transpose *ᵥ (A *ᵥ c - b) = 0 := by
    rw [Matrix.mulVec_sub, Matrix.mulVec_mulVec, sub_eq_zero]
    exact hc
  have e1 : A *ᵥ y - b = (A *ᵥ c - b) + A *ᵥ (y - c) := by rw [Matrix.mulVec_sub]; abel
  have e2 : (A *ᵥ c - b) ⬝ᵥ (A *ᵥ (y - c)) = 0 := by
    rw [dotProduct_comm, dot_mulVec_left, hg, dotProduct_zero]
  have e3 : (A *ᵥ (y - c)) ⬝ᵥ (A *ᵥ c - b) = 0 := by rw [dotProduct_comm]; exact e2
  have h0 := dot_self_nonneg (A *ᵥ (y - c))
  rw [e1, add_dotProduct, dotProduct_add, dotProduct_add, e2, e3]
  linarith

end

/-- C98 (3D solver).  After any history of calls, a point found by `solve` strictly inside the box has nearly the least error: the excess is at
most a factor, made of the thresholds, times the squared distance of the mass point to any point with the least error. -/
theorem C98_solver {tiny : ℝ} (ht : 0 < tiny) (ops : List (QefOp ℝ 3)) (hc : CleanRun qef3Rows 30 tiny Qef.new3 ops)
    {q q' : Qef ℝ 3} (h : runOps qef3Rows 30 tiny Qef.new3 ops = some q) (hcc : CompressClean tiny q) (hpinv : 0 < q.pinvTolerance)
    {lo hi x : VecN ℝ 3} (hs : q.solve qef3Rows tiny lo hi = some (q', x)) (hbox : ∀ i, lo i < x i ∧ x i < hi i) :
    (∃ c, LeastAt (expectedErr ops) c) ∧ NearlyLeast q (expectedErr ops) (massPoint q) x := by
  obtain ⟨i, e⟩ := run_spec ht (by simp [qef3Rows]) ops new3_inv hc h
  have he : qerr q = expectedErr ops := funext fun p => by rw [e p, new3_err]; rfl
  rw [← he]
  exact ⟨least_exists ht (by simp [qef3Rows]) i hcc, solve_near (d := 1) ht i hcc hpinv hs hbox⟩

/-- C98 (4D solver).  The same for the solver of dual marching cubes. -/
theorem C98_solver4 {tiny : ℝ} (ht : 0 < tiny) (ops : List (QefOp ℝ 4)) (hc : CleanRun qef4Rows 29 tiny Qef.new4 ops)
    {q q' : Qef ℝ 4} (h : runOps qef4Rows 29 tiny Qef.new4 ops = some q) (hcc : CompressClean tiny q) (hpinv : 0 < q.pinvTolerance)
    {lo hi x : VecN ℝ 4} (hs : q.solve qef4Rows tiny lo hi = some (q', x)) (hbox : ∀ i, lo i < x i ∧ x i < hi i) :
    (∃ c, LeastAt (expectedErr ops) c) ∧ NearlyLeast q (expectedErr ops) (massPoint q) x := by
  obtain ⟨i, e⟩ := run_spec ht (by simp [qef4Rows]) ops new4_inv hc h
  have he : qerr q = expectedErr ops := funext fun p => by rw [e p, new4_err]; rfl
  rw [← he]
  exact ⟨least_exists ht (by simp [qef4Rows]) i hcc, solve_near (d := 2) ht i hcc hpinv hs hbox⟩

/-! ### Meshes -/

/-- A cell has few stored edges. -/
theorem cell_edges_few {g : Grid ℝ} (hF : Filled g) {P : IVec3} {es : List (GridEdge ℝ)} (hnd : es.Nodup)
    (h : ∀ e ∈ es, e ∈ edgeList g ∧ EdgeOfCell P e.axis e.lesser) : es.length < 2 ^ 32 := by
  have hinj : (es.map fun e => (e.axis, e.lesser)).Nodup := by
    refine hnd.map_on fun a ha b hb e => ?_
    have hn : ((edgeList g).map LEdge.ofGridEdge).Nodup := List.pairwise_map.2 (Stored.edgeList_nodup hF.stored)
    refine List.inj_on_of_nodup_map hn (h a ha).1 (h b hb).1 ?_
    simp only [Prod.mk.injEq] at e
    simp only [LEdge.ofGridEdge, e.1, e.2]
  have hsub : (es.map fun e => (e.axis, e.lesser)) ⊆ [Axis.X, Axis.Y, Axis.Z] ×ˢ cellVertices P := by
    intro k hk
    obtain ⟨e, he, rfl⟩ := List.mem_map.1 hk
    rw [List.mem_product]
    refine ⟨by cases e.axis <;> simp, (h e he).2 _ ?_⟩
    cases e.axis <;> simp [edgeVertices]
  have := (hinj.subperm hsub).length_le
  rw [List.length_map, List.length_product] at this
  have h8 : (cellVertices P).length = 8 := rfl
  rw [h8] at this
  norm_num at this ⊢
  omega

/-- The planes of a list of edges, solved in a cell. -/
theorem edges_near {env : DcEnv ℝ} (ht : 0 < env.tiny) {P : IVec3} {es es' : List (GridEdge ℝ)} {solver q0 q1 q2 : Qef ℝ 3} {x : VecN ℝ 3}
    (hpinv : 0 < solver.pinvTolerance) (ho : SameOptions solver q0) (hlen : es.length < 2 ^ 32) (hperm : es'.Perm es)
    (hc : CleanEdges env.eps env.tiny es)
    (hr : runOps qef3Rows 30 env.tiny q0 (.reset :: es'.map (planeOp env.eps)) = some q1)
    (hs : q1.solve qef3Rows env.tiny (cellLo P) (cellHi P) = some (q2, x)) : NearVertex env solver P es x := by
  obtain ⟨hc1, hc2⟩ := hc es' q0 hperm
  have hcc := hc2 q1 hr
  by_cases hb : ∃ i, x i = cellLo P i ∨ x i = cellHi P i
  · exact Or.inl hb
  right
  have hin : ∀ i, cellLo P i < x i ∧ x i < cellHi P i := by
    intro i
    have h1 := C38_box env.tiny q1 q2 _ _ x hs (fun i => by fin_cases i <;> simp [cellLo, cellHi]) i
    refine ⟨lt_of_le_of_ne h1.1 fun e => hb ⟨i, Or.inl e.symm⟩, lt_of_le_of_ne h1.2 fun e => hb ⟨i, Or.inr e⟩⟩
  have hpp : (edgePlanes env.eps es').Perm (edgePlanes env.eps es) := hperm.map _
  have hops : es'.map (planeOp env.eps) = (edgePlanes env.eps es').map fun a => QefOp.addPlane a.1 a.2 := by
    unfold edgePlanes
    rw [List.map_map]; rfl
  rw [hops] at hr hc1
  rw [runOps, List.foldlM_cons] at hr
  simp only [QefOp.apply, Option.bind_eq_bind, Option.bind_some] at hr
  have hclean := hc1.2 q0.reset rfl
  have hinv : QInv qef3Rows q0.reset := ⟨by simp [Qef.reset], fun _ _ _ _ => rfl⟩
  obtain ⟨q', e1, e2, e3, e4, e5, o1, o2, o3, -⟩ := planes_run (d := 1) (bits := 30) ht (by simp [qef3Rows]) (edgePlanes env.eps es') hinv
    (by simp [Qef.reset]) hclean
  have hq' : q' = q1 := by
    have := e1.symm.trans hr
    exact Option.some.inj this
  subst hq'
  have h0 : ∀ p, qerr q0.reset p = 0 := fun p => by simp [qerr, Qef.reset]
  have hF : qerr q' = planesErr (edgePlanes env.eps es) := by
    funext p
    rw [e3, h0, zero_add]
    exact planesErr_perm hpp p
  have hmass : massPoint q' = meanPoint (edgePlanes env.eps es) := by
    rw [← meanPoint_perm hpp]
    funext i
    unfold massPoint meanPoint
    have hl : (edgePlanes env.eps es').length < 2 ^ 32 := by
      unfold edgePlanes
      rw [List.length_map, hperm.length_eq]; exact hlen
    rw [e4, e5]
    have h1 : (q0.reset.pointsCount + (edgePlanes env.eps es').length) % 2 ^ 32 = (edgePlanes env.eps es').length := by
      simp only [Qef.reset, Nat.zero_add]
      exact Nat.mod_eq_of_lt hl
    rw [h1]
    have h2 : (q0.reset.pointsSum + (List.map (fun x => x.1) (edgePlanes env.eps es')).sum) i = (List.map (fun pn => pn.1 i) (edgePlanes env.eps es')).sum := by
      simp only [Qef.reset]
      rw [Pi.add_apply]
      generalize edgePlanes env.eps es' = l
      clear * -
      induction l with
      | nil => simp
      | cons a l ih =>
        simp only [List.map_cons, List.sum_cons, Pi.add_apply, zero_add] at ih ⊢
        rw [ih]
    rw [h2]
  have key := solve_near (d := 1) ht e2 hcc (by rw [o1]; show 0 < q0.pinvTolerance; rw [ho.1]; exact hpinv) hs hin
  rw [hF, hmass] at key
  intro c hcb
  have := key c hcb
  have p1 : q'.pinvTolerance = solver.pinvTolerance := o1.trans ho.1
  have p2 : q'.jacobiTolerance = solver.jacobiTolerance := o2.trans ho.2.1
  have p3 : q'.maxJacobiIters = solver.maxJacobiIters := o3.trans ho.2.2.1
  rw [p1, p2, p3] at this
  exact this

/-- C98 (vertex of a cell). -/
theorem vertex_optimal {env : DcEnv ℝ} (ht : 0 < env.tiny) {g : Grid ℝ} (hF : Filled g) {solver : Qef ℝ 3} (hpinv : 0 < solver.pinvTolerance) {P : IVec3}
    {v : MeshVertex ℝ} (h : DualVertex env g solver P v) {es : List (GridEdge ℝ)} (hes : StoredEdges g P es) (hc : CleanEdges env.eps env.tiny es) :
    NearVertex env solver P es v.position.toVecN := by
  obtain ⟨es', q0, q1, q2, x, k1, k2, k3, k4, k5, k6, -⟩ := h.solution
  have hperm : es'.Perm es := (List.perm_ext_iff_of_nodup k1 hes.1).2 fun e => by rw [hes.2, k2]
  rw [k6]
  exact edges_near ht hpinv k3 (cell_edges_few hF hes.1 fun e he => (hes.2 e).1 he) hperm hc k4 k5

/-- C98 (uniform dual contouring): the mesh has one vertex for each crossing cell, on the boundary of the cell or nearly optimal for the planes of
the edges of the cell. -/
theorem C98_uniform {env : DcEnv ℝ} (ht : 0 < env.tiny) {g : Grid ℝ} (hF : Filled g) (hsort : IsSort env.srt) {solver q : Qef ℝ 3}
    (hpinv : 0 < solver.pinvTolerance) {r : PlacedMesh ℝ} (hr : dualContouring env g solver = some (q, r)) {cells : List IVec3}
    (hcells : CellList g cells) :
    r.mesh.vertices.length = cells.length ∧ ∀ (k : Nat) (P : IVec3), cells[k]? = some P → ∃ v, r.mesh.vertices[k]? = some v ∧
      ∀ es, StoredEdges g P es → CleanEdges env.eps env.tiny es → NearVertex env solver P es v.position.toVecN := by
  obtain ⟨-, q', r', hr', -, -, -, hv⟩ := C18_vertices (env := env) hF hsort hpinv
  rw [hr] at hr'; cases hr'
  obtain ⟨h1, h2⟩ := hv cells hcells
  refine ⟨h1, fun k P hk => ?_⟩
  obtain ⟨v, hv, hD⟩ := h2 k P hk
  exact ⟨v, hv, fun es hes hc => vertex_optimal ht hF hpinv hD hes hc⟩

/-- C98 (octree dual contouring without simplification): the same for the crossing cells of the root cube. -/
theorem C98_octree {env : DcEnv ℝ} (ht : 0 < env.tiny) {g : Grid ℝ} (hF : Filled g) {o o' o'' : DcOctree ℝ} {solver q' : Qef ℝ 3}
    (hpinv : 0 < solver.pinvTolerance) {epsilon : ℝ} (hin : CubeIn g.maxCoord (rootCube o.level))
    (hb : o.build env g solver epsilon false = some (q', o')) {r : PlacedMesh ℝ} (hc : o'.contour = some (r, o'')) :
    ∃ cells : List IVec3, cells.Nodup ∧ (∀ P, P ∈ cells ↔ CrossingCell g P ∧ (rootCube o.level).Has P) ∧ r.mesh.vertices.length = cells.length ∧
      ∀ (k : Nat) (P : IVec3), cells[k]? = some P → ∃ v, r.mesh.vertices[k]? = some v ∧
        ∀ es, StoredEdges g P es → CleanEdges env.eps env.tiny es → NearVertex env solver P es v.position.toVecN := by
  obtain ⟨q1, o1, o2, r', cells, edges, hb', hc', hnd, hcells, hverts, -⟩ := C23_unsimplified (env := env) hF o (solver := solver) epsilon hin hpinv
  rw [hb] at hb'; cases hb'
  rw [hc] at hc'; cases hc'
  have hflat : ∀ c ∈ cells, c = (⟨c.lo, 0⟩ : Cube) := by
    intro c hcm
    obtain ⟨P, e, -⟩ := (hcells c).1 hcm
    rw [e]
  refine ⟨cells.map Cube.lo, ?_, fun P => ?_, ?_, fun k P hk => ?_⟩
  · refine hnd.map_on fun a ha b hb e => ?_
    rw [hflat a ha, hflat b hb, e]
  · rw [List.mem_map]
    constructor
    · rintro ⟨c, hcm, rfl⟩
      obtain ⟨P, e, h1, h2⟩ := (hcells c).1 hcm
      rw [e]; exact ⟨h1, h2⟩
    · intro h
      exact ⟨⟨P, 0⟩, (hcells _).2 ⟨P, rfl, h⟩, rfl⟩
  · rw [List.length_map]; exact hverts.length_eq.symm
  · rw [List.getElem?_map, Option.map_eq_some_iff] at hk
    obtain ⟨cb, hcb, rfl⟩ := hk
    obtain ⟨hk1, rfl⟩ := List.getElem?_eq_some_iff.1 hcb
    have hk2 : k < r.mesh.vertices.length := by rw [← hverts.length_eq]; exact hk1
    exact ⟨_, List.getElem?_eq_getElem hk2, fun es hes hc =>
      vertex_optimal ht hF hpinv ((List.forall₂_iff_get.1 hverts).2 k hk1 hk2) hes hc⟩

/-- C98 (MDC octree): every vertex of the mesh made with a negative error bound, after any earlier `contour` calls, belongs to one sheet of the
surface in one cell, and is on the boundary of this cell or nearly optimal for the planes of this sheet. -/
theorem C98_mdc {env : DcEnv ℝ} (ht : 0 < env.tiny) {g : Grid ℝ} (hF : Filled g) {o o' o1 o2 : MdcOctree ℝ} {solver q' : Qef ℝ 3}
    (hpinv : 0 < solver.pinvTolerance) (hsc : o.globalScale ≠ 0) (hin : CubeIn g.maxCoord (rootCube o.level))
    (hsz : 4 * crossingCells g (rootCube o.level) + 3 < 2 ^ 32)
    (hb : o.build env g solver = some (q', o')) {bounds : List ℝ} (h1 : contourAll o' bounds = some o1) {ε : ℝ} (hε : ε < 0)
    {r : PlacedMesh ℝ} (h2 : o1.contour ε = some (r, o2)) (k : Nat) (v : MeshVertex ℝ) (hv : r.mesh.vertices[k]? = some v) :
    ∃ (P : IVec3) (x : LEdge), CrossingOf g P x ∧ (rootCube o.level).Has P ∧
      ∀ es, SheetEdges g P x es → CleanEdges env.eps env.tiny es → NearVertex env solver P es v.position.toVecN := by
  obtain ⟨M, V, hS, hall⟩ := C28_contour hF hin hsz (mul_self_pos.2 hsc) hb
  obtain ⟨o1', e1, e2⟩ := hall bounds
  rw [h1] at e1; cases e1
  obtain ⟨o2', e3⟩ := e2 ε
  rw [h2] at e3; cases e3
  obtain ⟨cb, w, hd, hw, hvw, -, hfit⟩ := hS.fit ε k v hv
  have hk : cb.k = 0 := by
    rcases hfit with hk | hwe
    · exact hk
    · obtain ⟨q1, hq⟩ := fit_box hw
      have := box_error hq
      have : ε / (o.globalScale * o.globalScale) < 0 := div_neg_of_neg_of_pos hε (mul_self_pos.2 hsc)
      linarith
  have hpos : v.position = w.position := by rw [hvw]
  cases hw with
  | @cell P X w es' q1 ps k1 k2 k3 k4 k5 =>
    obtain ⟨x, hx, hX⟩ := k1
    obtain ⟨q2, y, q3, m1, m2, m3, m4⟩ := k5
    have hy : v.position.toVecN = y := by rw [hpos, m2]; funext i; fin_cases i <;> rfl
    obtain ⟨hxc, hxo, -⟩ := (hX x).1 hx
    refine ⟨P, x.edge, hxo, ?_, fun es hes hc => ?_⟩
    · have := hx.1.1
      rw [hxc] at this
      exact this
    have hperm : es'.Perm es := (List.perm_ext_iff_of_nodup k2 hes.1).2 fun e => by
      rw [hes.2, k3, hX]
      constructor
      · rintro ⟨n1, -, n2, n3⟩
        exact ⟨n1, n2.2, n3⟩
      · rintro ⟨n1, n2, n3⟩
        exact ⟨n1, rfl, ⟨(hF.edge_iff _ _).1 ⟨e, (mem_edgeList hF).1 n1, rfl⟩, n2⟩, n3⟩
    rw [hy]
    refine edges_near ht hpinv ⟨rfl, rfl, rfl, rfl⟩ (cell_edges_few hF hes.1 fun e he => ⟨((hes.2 e).1 he).1, ((hes.2 e).1 he).2.1⟩) hperm hc k4
      (q2 := q2) ?_
    have e2 : cellHi (K := ℝ) P = ![((P.x + 2 ^ 0 : Int) : ℝ), ((P.y + 2 ^ 0 : Int) : ℝ), ((P.z + 2 ^ 0 : Int) : ℝ)] := by
      unfold cellHi; push_cast; simp
    rw [e2]; exact m1
  | @node c X w kids q1 k1 k2 k3 =>
    exfalso
    obtain ⟨kd, hkd⟩ := List.exists_mem_of_ne_nil kids k1
    have := (k3 kd hkd).2
    rw [hk] at this
    exact absurd this (Nat.not_lt_zero _)

/-- C98 (weight): for planes the weight is the sum of the squared lengths of the normals. -/
theorem C98_weight {d : Nat} (l : List (VecN ℝ d × VecN ℝ d)) : errWeight (planesErr l) = normalWeight l := by
  unfold normalWeight
  have h1 : ∀ pn : VecN ℝ d × VecN ℝ d, errWeight (fun y => planeErr pn.1 pn.2 y) = ∑ i, pn.2 i ^ 2 := by
    intro pn
    unfold errWeight
    apply Finset.sum_congr rfl
    intro i _
    set k := ∑ j, pn.2 j * pn.1 j with hk
    have e : ∀ y : VecN ℝ d, planeErr pn.1 pn.2 y = (∑ j, pn.2 j * y j - k) ^ 2 := by
      intro y
      unfold planeErr
      rw [hk, ← Finset.sum_sub_distrib]
      congr 1
      exact Finset.sum_congr rfl fun j _ => by ring
    have e1 : ∑ j, pn.2 j * (Pi.single i 1 : VecN ℝ d) j = pn.2 i := by simp [Pi.single_apply]
    have e2 : ∑ j, pn.2 j * (-Pi.single i 1 : VecN ℝ d) j = -pn.2 i := by
      simp only [Pi.neg_apply, mul_neg, Finset.sum_neg_distrib, e1]
    have e3 : ∑ j, pn.2 j * (0 : VecN ℝ d) j = 0 := by simp
    dsimp only
    rw [e, e, e, e1, e2, e3]
    ring
  induction l with
  | nil => simp [errWeight, planesErr]
  | cons a l ih =>
    rw [List.map_cons, List.sum_cons, ← ih, ← h1]
    unfold errWeight
    rw [← Finset.sum_add_distrib]
    apply Finset.sum_congr rfl
    intro i _
    simp only [planesErr, List.map_cons, List.sum_cons]
    ring

/-- C98 (limit): with a smaller eigenvalue tolerance and more iterations the factor gets as close as wanted to the threshold of small eigenvalues. -/
theorem C98_limit {π w δ : ℝ} (n : Nat) (hδ : 0 < δ) : ∃ τ > 0, ∃ N : Nat, ∀ tol iters, |tol| ≤ τ → N ≤ iters →
    gapFactor π (offDiagBound (n + 2) tol iters w) ≤ π + δ := by
  have hcont : Filter.Tendsto (gapFactor π) (nhds 0) (nhds (gapFactor π 0)) := by
    apply Continuous.tendsto
    unfold gapFactor
    fun_prop
  have h0 : gapFactor π 0 = π := by simp [gapFactor]
  rw [h0] at hcont
  have hev := hcont.eventually (gt_mem_nhds (show π < π + δ by linarith))
  obtain ⟨η, hη, hball⟩ := Metric.eventually_nhds_iff.1 hev
  have hn2 : (0 : ℝ) < ((n + 2 : Nat) : ℝ) * (((n + 2 : Nat) : ℝ) - 1) := by
    push_cast
    have : (0 : ℝ) ≤ n := Nat.cast_nonneg n
    nlinarith
  set a : ℝ := 1 - 2 / (((n + 2 : Nat) : ℝ) * (((n + 2 : Nat) : ℝ) - 1)) with ha
  have ha0 : 0 ≤ a := by
    rw [ha, sub_nonneg, div_le_one hn2]
    push_cast
    have : (0 : ℝ) ≤ n := Nat.cast_nonneg n
    nlinarith
  have ha1 : a < 1 := by
    have : 0 < 2 / (((n + 2 : Nat) : ℝ) * (((n + 2 : Nat) : ℝ) - 1)) := by positivity
    rw [ha]; linarith
  set b : ℝ := ((n + 2 : Nat) : ℝ) * (((n + 2 : Nat) : ℝ) - 1) with hb
  obtain ⟨N, hN⟩ := exists_pow_lt_of_lt_one (show (0 : ℝ) < η / 2 / (w ^ 2 + 1) by positivity) ha1
  refine ⟨Real.sqrt (η / 2 / b), Real.sqrt_pos.2 (by positivity), N, fun tol iters ht hi => ?_⟩
  have hoff0 : 0 ≤ offDiagBound (n + 2) tol iters w := by
    unfold offDiagBound
    exact le_max_of_le_left (mul_nonneg hn2.le (sq_nonneg _))
  have hoff : offDiagBound (n + 2) tol iters w ≤ η / 2 := by
    unfold offDiagBound
    apply max_le
    · have h1 : tol ^ 2 ≤ η / 2 / b := by
        rw [← sq_abs, ← Real.sq_sqrt (show 0 ≤ η / 2 / b by positivity)]
        exact pow_le_pow_left₀ (abs_nonneg _) ht 2
      calc b * tol ^ 2 ≤ b * (η / 2 / b) := mul_le_mul_of_nonneg_left h1 hn2.le
        _ = η / 2 := by field_simp
    · have h2 : a ^ iters ≤ a ^ N := pow_le_pow_of_le_one ha0 ha1.le hi
      have h3 : a ^ iters * w ^ 2 ≤ η / 2 / (w ^ 2 + 1) * (w ^ 2 + 1) :=
        mul_le_mul (h2.trans hN.le) (by linarith) (sq_nonneg _) (by positivity)
      have h4 : η / 2 / (w ^ 2 + 1) * (w ^ 2 + 1) = η / 2 := by
        have : w ^ 2 + 1 ≠ 0 := by positivity
        field_simp
      linarith
  have := hball (y := offDiagBound (n + 2) tol iters w) (by
    rw [Real.dist_eq, sub_zero, abs_of_nonneg hoff0]; linarith)
  exact this.le

end Isomesh
