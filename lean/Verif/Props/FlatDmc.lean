import Verif.Props.Flat
import Verif.Props.DmcBuild

/-! C70: flat surfaces in DMC octrees. -/

namespace Isomesh

open Spec

noncomputable section

variable {R : Type}

/-- The common row of all samples of an affine field. -/
def dmcRow (o : DmcOctree ℝ) (n : Vec3 ℝ) (d : ℝ) : Fin 5 → ℝ :=
  ![n.x, n.y, n.z, -1, -((n.x * o.globalPos.x + n.y * o.globalPos.y + n.z * o.globalPos.z + d) / o.globalScale)]

theorem dmcRow_iff {a : DmcArgs ℝ R} {n : Vec3 ℝ} {d : ℝ} (hf : PlaneField a.field n d) (hs : 0 < a.oct.globalScale) (x : VecN ℝ 4) :
    ∑ i : Fin 4, dmcRow a.oct n d i.castSucc * x i - dmcRow a.oct n d (Fin.last 4) =
      a.field.value (a.oct.localToGlobal ⟨x 0, x 1, x 2⟩) / a.oct.globalScale - x 3 := by
  have e : ∑ i : Fin 4, dmcRow a.oct n d i.castSucc * x i = n.x * x 0 + n.y * x 1 + n.z * x 2 + (-1) * x 3 := by
    rw [Fin.sum_univ_four]; rfl
  have e' : dmcRow a.oct n d (Fin.last 4) =
    -((n.x * a.oct.globalPos.x + n.y * a.oct.globalPos.y + n.z * a.oct.globalPos.z + d) / a.oct.globalScale) := rfl
  rw [e, e', hf.value]
  simp only [DmcOctree.localToGlobal]
  field_simp
  ring

theorem flat_dmc_leaf {a : DmcArgs ℝ R} {n : Vec3 ℝ} {d : ℝ} (hf : PlaneField a.field n d) (hs : 0 < a.oct.globalScale) (ht : 0 < a.env.tiny)
    (ht1 : a.env.tiny ≤ 1) (hsize : ∀ x : Axis, n.get x = 0 ∨ a.env.tiny ≤ n.get x ^ 2) {options : Qef ℝ 4} {c : Cube} {offs : List (Vec3 ℝ)}
    (hoffs : ∀ off ∈ offs, ∀ x : Axis, 0 ≤ off.get x ∧ off.get x ≤ 2 ^ c.k) (hlen : offs.length + 1 < 2 ^ 32)
    (hrange : ∀ v, c.ClosedR v → a.env.lowest ≤ a.field.value (a.oct.localToGlobal v) / a.oct.globalScale ∧
      a.field.value (a.oct.localToGlobal v) / a.oct.globalScale ≤ a.env.highest) {l : DmcLeaf ℝ} {ok : Bool}
    (h : DmcSolution a options c offs l ok) :
    l.w * a.oct.globalScale = a.field.value (a.oct.localToGlobal l.vertex) ∨
      (l.w = 0 ∧ offs.length * a.field.value (a.oct.localToGlobal l.vertex) ^ 2 ≤ a.epsilon * a.oct.globalScale ^ 2) := by
  obtain ⟨q1, q2, x2, e2, hr, hs2, he2, hcase⟩ := h
  have hw : FlatRow a.env.tiny (dmcRow a.oct n d) := by
    refine ⟨?_, 3, by simp [dmcRow]⟩
    intro i
    fin_cases i
    · exact hsize .X
    · exact hsize .Y
    · exact hsize .Z
    · right
      show a.env.tiny ≤ (-1) ^ 2
      linarith
  -- facts about one sample
  have hpt : ∀ off ∈ offs, (∀ i, vec4 (dmcGrad a c.lo off) (-1) i = dmcRow a.oct n d i.castSucc) ∧
      dotProduct (vec4 (dmcGrad a c.lo off) (-1)) (dmcPoint a c.lo off) = dmcRow a.oct n d (Fin.last 4) ∧
      ∀ i, vec4 c.lo.toReal a.env.lowest i ≤ dmcPoint a c.lo off i ∧
        dmcPoint a c.lo off i ≤ vec4 (upperCorner c.lo c.k).toReal a.env.highest i := by
    intro off hoff
    have h1 : ∀ i, vec4 (dmcGrad a c.lo off) (-1) i = dmcRow a.oct n d i.castSucc := by
      intro i
      unfold dmcGrad
      rw [hf.grad]
      fin_cases i <;> rfl
    refine ⟨h1, ?_, ?_⟩
    · have e : dotProduct (vec4 (dmcGrad a c.lo off) (-1)) (dmcPoint a c.lo off) =
          ∑ i : Fin 4, dmcRow a.oct n d i.castSucc * dmcPoint a c.lo off i := by
        unfold dotProduct
        exact Finset.sum_congr rfl fun i _ => by rw [h1]
      have := dmcRow_iff hf hs (dmcPoint a c.lo off)
      rw [e]
      have e2 : a.field.value (a.oct.localToGlobal ⟨dmcPoint a c.lo off 0, dmcPoint a c.lo off 1, dmcPoint a c.lo off 2⟩) / a.oct.globalScale =
        dmcPoint a c.lo off 3 := rfl
      rw [e2, sub_self] at this
      linarith
    · have hx := hoffs off hoff .X
      have hy := hoffs off hoff .Y
      have hz := hoffs off hoff .Z
      simp only [Vec3.get] at hx hy hz
      have hin : c.ClosedR (c.lo.toReal.add off) := by
        simp only [Cube.ClosedR, IVec3.toReal, Vec3.add]
        push_cast
        refine ⟨⟨?_, ?_⟩, ⟨?_, ?_⟩, ⟨?_, ?_⟩⟩ <;> linarith
      have hr := hrange _ hin
      have hin' := hin
      simp only [Cube.ClosedR] at hin'
      intro i
      fin_cases i
      · refine ⟨hin'.1.1, ?_⟩
        show _ ≤ ((c.lo.x + 2 ^ c.k : Int) : ℝ)
        exact hin'.1.2
      · refine ⟨hin'.2.1.1, ?_⟩
        show _ ≤ ((c.lo.y + 2 ^ c.k : Int) : ℝ)
        exact hin'.2.1.2
      · refine ⟨hin'.2.2.1, ?_⟩
        show _ ≤ ((c.lo.z + 2 ^ c.k : Int) : ℝ)
        exact hin'.2.2.2
      · exact hr
  have hq1 := flatQ_run_planes (d := 2) (M := qef4Rows) ht hw (by decide) offs (fun off => dmcPoint a c.lo off) (fun off => vec4 (dmcGrad a c.lo off) (-1))
    (fun off h => (hpt off h).1) (fun off h => (hpt off h).2.1) (fun off h i => ((hpt off h).2.2 i).1) (fun off h i => ((hpt off h).2.2 i).2)
    (flatQ_reset qef4Rows _ _ _ options) (by omega) hr
  obtain ⟨hq2, hmp, hx2, hm2, hbox⟩ := flatQ_solve_any ht hw hq1 hs2
  rcases hcase with ⟨hle, -, hx⟩ | ⟨-, q3, e3, hs3, -, -⟩
  · right
    have hw0 : l.w = 0 := by
      have : vec4 l.vertex l.w 3 = x2 3 := by rw [hx]
      rw [hx2, clampV_zero] at this
      exact this
    refine ⟨hw0, ?_⟩
    have hrun := runOps_append _ (.solve (vec4 c.lo.toReal 0) (vec4 (upperCorner c.lo c.k).toReal 0)) hr
      (show QefOp.apply qef4Rows 29 a.env.tiny q1 _ = some q2 by simp [QefOp.apply, hs2])
    have hclean : CleanRun qef4Rows 29 a.env.tiny options.reset (samplePlanes a c.lo offs ++
        [.solve (vec4 c.lo.toReal 0) (vec4 (upperCorner c.lo c.k).toReal 0)]) := by
      refine flat_cleanRun (d := 2) ht hw (by decide) _ 0 _ (flatQ_reset qef4Rows _ (vec4 c.lo.toReal a.env.lowest)
        (vec4 (upperCorner c.lo c.k).toReal a.env.highest) options) ?_ ?_
      · simp only [List.length_append, samplePlanes, List.length_map, List.length_singleton]; omega
      · intro op hop
        rw [List.mem_append] at hop
        rcases hop with hop | hop
        · unfold samplePlanes at hop
          rw [List.mem_map] at hop
          obtain ⟨off, ho, rfl⟩ := hop
          exact ⟨(hpt off ho).1, (hpt off ho).2.1, fun i => ((hpt off ho).2.2 i).1, fun i => ((hpt off ho).2.2 i).2⟩
        · rw [List.mem_singleton] at hop
          subst hop
          trivial
    have hfit := run_fit (a := a) ht (by simp) hrun hclean x2
    rw [eval_eq q2 hq2.inv.rows, hfit, Option.some.injEq] at he2
    have hv : (⟨x2 0, x2 1, x2 2⟩ : Vec3 ℝ) = l.vertex := by rw [← hx]; rfl
    have h3 : x2 3 = 0 := by rw [← hx]; exact hw0
    rw [hv, h3] at he2
    have hsum : fitError a c.lo offs l.vertex 0 =
        offs.length * (a.field.value (a.oct.localToGlobal l.vertex) / a.oct.globalScale) ^ 2 := by
      unfold fitError
      have : ∀ off : Vec3 ℝ, (let P : Vec3 ℝ := c.lo.toReal.add off
          let g := a.field.grad (a.oct.localToGlobal P)
          (a.field.value (a.oct.localToGlobal P) / a.oct.globalScale + (g.x * (l.vertex.x - P.x) + g.y * (l.vertex.y - P.y) + g.z * (l.vertex.z - P.z)) -
            0) ^ 2) = (a.field.value (a.oct.localToGlobal l.vertex) / a.oct.globalScale) ^ 2 := by
        intro off
        dsimp only
        congr 1
        rw [hf.grad, hf.value, hf.value]
        simp only [DmcOctree.localToGlobal]
        field_simp
        ring
      rw [List.map_congr_left (fun off _ => this off), List.map_const', List.sum_replicate, nsmul_eq_mul]
    rw [← he2, hsum] at hle
    rw [div_pow, ← mul_div_assoc, div_le_iff₀ (by positivity)] at hle
    exact hle
  · left
    obtain ⟨-, hmp3, hx3, -, hbox3⟩ := flatQ_solve_any ht hw hq2 hs3
    rw [clamp_id hbox3] at hx3
    rw [← hx3] at hmp3
    have := dmcRow_iff hf hs (vec4 l.vertex l.w)
    rw [hmp3, sub_self] at this
    have e : a.field.value (a.oct.localToGlobal ⟨vec4 l.vertex l.w 0, vec4 l.vertex l.w 1, vec4 l.vertex l.w 2⟩) =
      a.field.value (a.oct.localToGlobal l.vertex) := rfl
    have e' : vec4 l.vertex l.w 3 = l.w := rfl
    rw [e, e'] at this
    have h0 : l.w = a.field.value (a.oct.localToGlobal l.vertex) / a.oct.globalScale := by linarith
    rw [h0, div_mul_cancel₀ _ hs.ne']

theorem draws_mem (env : DmcEnv ℝ R) (k n : Nat) (r : R) : ∀ off ∈ (dmcDraws env k n r).1, ∃ r', off = (env.draw k r').1 := by
  induction n generalizing r with
  | zero => simp [dmcDraws]
  | succ n ih =>
    intro off h
    simp only [dmcDraws, List.mem_cons] at h
    rcases h with rfl | h
    · exact ⟨r, rfl⟩
    · exact ih _ off h

theorem sample_offsets {a : DmcArgs ℝ R} {k : Nat} (hk : k ≤ 27) {offs : List (Vec3 ℝ)} (h : SampleOffsets a k offs)
    (hdraw : a.flags.randomSampling = true → ∀ r (x : Axis), 0 ≤ (a.env.draw k r).1.get x ∧ (a.env.draw k r).1.get x ≤ 2 ^ k) :
    (∀ off ∈ offs, ∀ x : Axis, 0 ≤ off.get x ∧ off.get x ≤ 2 ^ k) ∧ offs.length + 1 < 2 ^ 32 ∧ 1 ≤ offs.length := by
  unfold SampleOffsets at h
  split at h
  · rename_i hr
    obtain ⟨r, rfl⟩ := h
    refine ⟨?_, ?_, ?_⟩
    · intro off hoff x
      obtain ⟨r', rfl⟩ := draws_mem _ _ _ _ off hoff
      exact hdraw hr r' x
    · rw [dmcDraws_length]
      have h2 : Real.sqrt (2 ^ k) ≤ 2 ^ 16 := by
        rw [Real.sqrt_le_left (by positivity)]
        calc (2 : ℝ) ^ k ≤ 2 ^ 27 := pow_le_pow_right₀ (by norm_num) hk
          _ ≤ (2 ^ 16) ^ 2 := by norm_num
      have : ⌊6 * Real.sqrt (2 ^ k)⌋₊ < 2 ^ 31 := by
        rw [Nat.floor_lt (by positivity)]
        push_cast
        linarith
      omega
    · rw [dmcDraws_length, Nat.one_le_floor_iff]
      have h1 : 1 ≤ Real.sqrt (2 ^ k) := by
        rw [Real.one_le_sqrt]
        exact one_le_pow₀ (by norm_num)
      linarith
  · obtain ⟨mn, mx, hmn, hmx, rfl⟩ := h
    have hp : (0 : ℝ) < 2 ^ k := by positivity
    push_cast at hmn hmx
    refine ⟨?_, by norm_num, by norm_num⟩
    intro off hoff x
    simp only [List.mem_cons, List.not_mem_nil, or_false] at hoff
    rcases hoff with rfl | rfl | rfl | rfl | rfl | rfl | rfl | rfl <;> cases x <;> simp only [Vec3.get] <;> constructor <;> linarith

/-- C70 (DMC octree): for an affine field whose values over the octree are within the range of the solver, any options of `build` and of
the solver and any random offsets within the cells, the value of the field on the mesh is at most the square root of the error bound (and
exactly zero for a bound of zero or less), and the normals are the normal of the plane. -/
theorem C70_dmc_octree {env : DmcEnv ℝ R} {o o' : DmcOctree ℝ} {f : ScalarField ℝ} {n : Vec3 ℝ} {d : ℝ} (hf : PlaneField f n d)
    (hs : 0 < o.globalScale) (ht : 0 < env.tiny) (ht1 : env.tiny ≤ 1) (hsize : ∀ x : Axis, n.get x = 0 ∨ env.tiny ≤ n.get x ^ 2)
    (hrange : ∀ v, (rootCube o.level).ClosedR v → env.lowest ≤ f.value (o.localToGlobal v) / o.globalScale ∧
      f.value (o.localToGlobal v) / o.globalScale ≤ env.highest) {epsilon : ℝ} {flags : DmcFlags} {seed : Nat}
    (hdraw : flags.randomSampling = true → ∀ k r (x : Axis), 0 ≤ (env.draw k r).1.get x ∧ (env.draw k r).1.get x ≤ 2 ^ k)
    (haddr : ∀ lo k lo' k', env.addr lo k = env.addr lo' k' → lo = lo' ∧ k = k')
    (hk : o.level ≤ 27) {solver q' : Qef ℝ 4} (hp : 0 < solver.pinvTolerance) (hb : o.build env f solver epsilon flags seed = some (q', o'))
    {normalize : Vec3 ℝ → Vec3 ℝ} {junk : Nat → Option Material} {r : PlacedMesh ℝ} (hr : o'.contour normalize junk = some r) :
    (∀ v ∈ r.mesh.vertices, f.value (meshToWorld r v.position) ^ 2 ≤ max 0 epsilon) ∧
    (∀ t ∈ triangles r.mesh.indices, ∀ q, OnMeshTriangle r t q → f.value q ^ 2 ≤ max 0 epsilon) ∧
    (TrueNormalize env.normalize → TrueNormalize normalize → ∀ v ∈ r.mesh.vertices, v.normal = unitVec n) := by
  obtain ⟨q'', o'', hb', e1, e2, e3, hh, -, htree⟩ := C53_dmc_build env o f solver epsilon flags seed hk hp
  rw [hb] at hb'; cases hb'
  have hrk : (rootCube o.level).k = o.level := by
    unfold rootCube
    split
    · rename_i h; rw [h]
    · rfl
  rw [← hrk] at hh
  have hleaf := dmcTree_leaf htree
  have haddr' := C53_addresses htree haddr
  obtain ⟨-, r1, r2⟩ := C50_dmc_mesh (c := rootCube o.level) hh haddr' hr
  have hsub : ∀ A ∈ (locate o'.root (rootCube o.level)).leaves, A.1.Sub (rootCube o.level) ∧ A.1.k ≤ o.level := by
    intro A hA
    have hpl := placed_locate o'.root (rootCube o.level) hh
    refine ⟨leaf_sub hpl A hA, ?_⟩
    have hsd := leaf_sub hpl A hA
    have h1 : A.1.side ≤ (rootCube o.level).side := by
      have := hsd.1
      omega
    unfold Cube.side at h1
    have h2 : (2 : Nat) ^ A.1.k ≤ 2 ^ (rootCube o.level).k := by exact_mod_cast h1
    rw [← hrk]
    exact (Nat.pow_le_pow_iff_right (by norm_num)).1 h2
  have key : ∀ A ∈ (locate o'.root (rootCube o.level)).leaves,
      (A.2.w * o.globalScale = f.value (o.localToGlobal A.2.vertex) ∨ (A.2.w = 0 ∧ f.value (o.localToGlobal A.2.vertex) ^ 2 ≤ epsilon)) ∧
      (TrueNormalize env.normalize → A.2.normal = unitVec n) := by
    intro A hA
    obtain ⟨offs, ok, h1, hl, -⟩ := hleaf A hA
    obtain ⟨k1, k2, k3⟩ := sample_offsets (le_trans (hsub A hA).2 hk) h1 (fun hr r x => hdraw hr _ r x)
    refine ⟨?_, ?_⟩
    · have := flat_dmc_leaf (a := dmcArgs env o f epsilon flags) hf hs ht ht1 hsize k1 k2
        (fun v hv => hrange v (closedR_sub (hsub A hA).1 hv)) hl.solution
      rcases this with h | ⟨h0, h⟩
      · exact Or.inl h
      · refine Or.inr ⟨h0, ?_⟩
        have e : (dmcArgs env o f epsilon flags).epsilon * (dmcArgs env o f epsilon flags).oct.globalScale ^ 2 = epsilon := by
          show epsilon / (o.globalScale * o.globalScale) * o.globalScale ^ 2 = epsilon
          field_simp
        rw [e] at h
        have hk3 : (1 : ℝ) ≤ offs.length := by exact_mod_cast k3
        have hnn := sq_nonneg (f.value (o.localToGlobal A.2.vertex))
        have : 1 * f.value (o.localToGlobal A.2.vertex) ^ 2 ≤ offs.length * f.value (o.localToGlobal A.2.vertex) ^ 2 :=
          mul_le_mul_of_nonneg_right hk3 hnn
        rw [one_mul] at this
        exact this.trans h
    · intro htn
      have hsum := foldl_add_const offs (fun off => f.grad (o.localToGlobal (A.1.lo.toReal.add off))) (m := n) (fun off _ => hf.grad _) ⟨0, 0, 0⟩
      refine hl.normal.trans ?_
      show env.normalize _ = _
      refine (congrArg env.normalize hsum).trans ?_
      have := normalize_smul htn hf.nonzero (t := offs.length) (by exact_mod_cast k3)
      simp only [zero_add]
      exact this
  have hvert : ∀ v ∈ r.mesh.vertices, f.value (meshToWorld r v.position) ^ 2 ≤ max 0 epsilon ∧
      (TrueNormalize env.normalize → TrueNormalize normalize → v.normal = unitVec n) := by
    intro V hV
    obtain ⟨A, B, hd, hsg, s, hz, hpos, hnrm, -⟩ := C49_linear_zero hh haddr' hr V hV
    obtain ⟨⟨h0, h1⟩, hzero⟩ := (hz s).2 rfl
    obtain ⟨hA, hB, -⟩ := dualEdge_upNext hd
    obtain ⟨a1, a2⟩ := key A hA
    obtain ⟨b1, b2⟩ := key B hB
    refine ⟨?_, ?_⟩
    · have hval : f.value (meshToWorld r V.position) =
          (1 - s) * f.value (o.localToGlobal A.2.vertex) + s * f.value (o.localToGlobal B.2.vertex) := by
        rw [hpos, hf.value, hf.value, hf.value]
        simp only [meshToWorld, r1, r2, e2, e3, between, DmcOctree.localToGlobal]
        ring
      rw [hval]
      rcases a1 with a1 | ⟨aw, a1⟩
      · rcases b1 with b1 | ⟨bw, b1⟩
        · rw [← a1, ← b1]
          have : (1 - s) * (A.2.w * o.globalScale) + s * (B.2.w * o.globalScale) = 0 := by
            linear_combination o.globalScale * hzero
          rw [this]
          simp
        · have hA0 : A.2.w ≠ 0 := by
            rcases hsg with h | h
            · rw [bw] at h; exact absurd h.2 (lt_irrefl _)
            · exact h.1.ne'
          rw [bw, mul_zero, add_zero] at hzero
          have hs1 : 1 - s = 0 := (mul_eq_zero.1 hzero).resolve_right hA0
          have : s = 1 := by linarith
          rw [this]
          simpa using Or.inr b1
      · have hB0 : B.2.w ≠ 0 := by
          rcases hsg with h | h
          · exact h.2.ne'
          · rw [aw] at h; exact absurd h.1 (lt_irrefl _)
        rw [aw, mul_zero, zero_add] at hzero
        have hs1 : s = 0 := (mul_eq_zero.1 hzero).resolve_right hB0
        rw [hs1]
        simpa using Or.inr a1
    · intro t1 t2
      rw [hnrm, a2 t1, b2 t1]
      have hl := unitVec_ne hf.nonzero
      have hu := normalize_smul t2 hf.nonzero (t := 1 / n.length) (by positivity)
      refine Eq.trans (congrArg normalize ?_) hu
      simp only [between, unitVec]
      ext <;> dsimp only <;> ring
  refine ⟨fun v hv => (hvert v hv).1, ?_, fun t1 t2 v hv => (hvert v hv).2 t1 t2⟩
  rintro t - q ⟨a, b, c, ha, hb, hc, α, β, γ, k1, k2, k3, hsum, rfl⟩
  have h1 := (hvert a (List.mem_of_getElem? ha)).1
  have h2 := (hvert b (List.mem_of_getElem? hb)).1
  have h3 := (hvert c (List.mem_of_getElem? hc)).1
  have hE : 0 ≤ max 0 epsilon := le_max_left _ _
  rw [Real.sq_le hE, ← abs_le] at h1 h2 h3 ⊢
  have hval : ∀ x y z : Vec3 ℝ, f.value ⟨α * x.x + β * y.x + γ * z.x, α * x.y + β * y.y + γ * z.y, α * x.z + β * y.z + γ * z.z⟩ =
      α * f.value x + β * f.value y + γ * f.value z := by
    intro x y z
    rw [hf.value, hf.value, hf.value, hf.value]
    linear_combination (-d) * hsum
  have hv := hval (meshToWorld r a.position) (meshToWorld r b.position) (meshToWorld r c.position)
  rw [hv]
  calc |α * f.value (meshToWorld r a.position) + β * f.value (meshToWorld r b.position) + γ * f.value (meshToWorld r c.position)|
      ≤ |α * f.value (meshToWorld r a.position)| + |β * f.value (meshToWorld r b.position)| + |γ * f.value (meshToWorld r c.position)| :=
        abs_add_three _ _ _
    _ = α * |f.value (meshToWorld r a.position)| + β * |f.value (meshToWorld r b.position)| + γ * |f.value (meshToWorld r c.position)| := by
        rw [abs_mul, abs_mul, abs_mul, abs_of_nonneg k1, abs_of_nonneg k2, abs_of_nonneg k3]
    _ ≤ α * Real.sqrt (max 0 epsilon) + β * Real.sqrt (max 0 epsilon) + γ * Real.sqrt (max 0 epsilon) := by
        have := mul_le_mul_of_nonneg_left h1 k1
        have := mul_le_mul_of_nonneg_left h2 k2
        have := mul_le_mul_of_nonneg_left h3 k3
        linarith
    _ = Real.sqrt (max 0 epsilon) := by rw [← add_mul, ← add_mul, hsum, one_mul]

end

end Isomesh
