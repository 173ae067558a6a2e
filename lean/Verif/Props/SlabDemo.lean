import Verif.Props.NearPlanes
import Verif.Props.MdcManifoldDemo

/-! A concrete case of C102 and C104 whose mesh has triangles between merged cubes: a slab through a grid of size 4. -/

namespace Isomesh
open Spec

theorem cubeErr_continuous (eps : ℝ) (g : Grid ℝ) : ∀ (k : Nat) (lo : IVec3), Continuous (cubeErr eps g k lo) := by
  intro k
  induction k with
  | zero =>
    intro lo
    have : ∀ l : List (VecN ℝ 3 × VecN ℝ 3), Continuous (planesErr l) := by
      intro l
      induction l with
      | nil => exact continuous_const
      | cons a l ih =>
        have e : planesErr (a :: l) = fun y => planeErr a.1 a.2 y + planesErr l y := by funext y; simp [planesErr]
        rw [e]
        refine Continuous.add ?_ ih
        unfold planeErr
        fun_prop
    exact this _
  | succ k ih =>
    intro lo
    have e : cubeErr eps g (k + 1) lo = fun x => ∑ i : Fin 8, cubeErr eps g k (octCorner lo (2 ^ k) i) x := by funext x; rfl
    rw [e]
    exact continuous_finsetSum _ fun i _ => ih _

theorem cubeErr_bounded (eps : ℝ) (g : Grid ℝ) (k : Nat) (lo : IVec3) (a b : VecN ℝ 3) :
    ∃ M : ℝ, 0 ≤ M ∧ ∀ x, (∀ i, a i ≤ x i ∧ x i ≤ b i) → cubeErr eps g k lo x ≤ M := by
  obtain ⟨M, hM⟩ := (isCompact_Icc (a := a) (b := b)).exists_bound_of_continuousOn (cubeErr_continuous eps g k lo).continuousOn
  refine ⟨max M 0, le_max_right _ _, fun x hx => ?_⟩
  exact (le_abs_self _).trans ((hM x ⟨fun i => (hx i).1, fun i => (hx i).2⟩).trans (le_max_left _ _))

/-- The error of the fit made for a node is the error of the crossings of its cube. -/
theorem fit_cubeErr {env : DcEnv ℝ} {g : Grid ℝ} {options q : Qef ℝ 3} (ht : 0 < env.tiny) (hF : Filled g) (hcl : CleanBuild env.eps env.tiny g options)
    {lo : IVec3} {k : Nat} (hin : CubeIn g.maxCoord ⟨lo, k + 1⟩) {l : Fin 8 → DcLeaf ℝ} {epsilon : ℝ}
    (hleaf : ∀ i, LeafOK g ⟨octCorner lo (2 ^ k) i, k⟩ (l i) ∧ ErrLeaf env g options epsilon (⟨octCorner lo (2 ^ k) i, k⟩, l i))
    (ho : SameOptions options q) {x : VecN ℝ 3} {err : ℝ} (hfit : Fit env g q ⟨lo, k + 1⟩ l x err) : err = cubeErr env.eps g (k + 1) lo x := by
  obtain ⟨qa, qv, r1, hv, he⟩ := hfit
  rw [← octantStates_eq fun i => (hleaf i).1] at r1
  set σ : Fin 8 → Option (QState ℝ 3) := fun i => if (l i).homogeneous then none else (l i).dual.map (·.qef) with hσ
  have hr : runOps qef3Rows 30 env.tiny options (cubeCalls k lo σ) = some qv := by
    have r2 : runOps qef3Rows 30 env.tiny options.reset (((List.finRange 8).filterMap σ).map .merge) = some qa := by
      rw [← reset_eq ho]; exact r1
    unfold runOps at r2
    rw [cubeCalls, List.cons_append, runOps, List.foldlM_cons]
    change (List.foldlM (fun q (op : QefOp ℝ 3) => QefOp.apply qef3Rows 30 env.tiny q op) options.reset _) = _
    rw [List.foldlM_append, r2]
    dsimp only at hv
    simp only [List.foldlM_cons, List.foldlM_nil, QefOp.apply, hv, Option.bind_eq_bind, Option.bind_some]
    rfl
  have hσ1 : ∀ i t, σ i = some t → CubeState env.eps env.tiny g options k (octCorner lo (2 ^ k) i) t ∧
      ∀ p, stateErr t p = cubeErr env.eps g k (octCorner lo (2 ^ k) i) p := by
    intro i t hi
    simp only [hσ] at hi
    split at hi
    · cases hi
    · rename_i hh
      obtain ⟨D, e1, e2, e3, -⟩ := (hleaf i).2 (by simpa using hh)
      rw [e1] at hi; cases hi
      exact ⟨e2, e3⟩
  have hσ2 : ∀ i, σ i = none → ∀ p, cubeErr env.eps g k (octCorner lo (2 ^ k) i) p = 0 := by
    intro i hi
    simp only [hσ] at hi
    split at hi
    · rename_i hh
      exact uniform_err hF _ _ _ ((hleaf i).1.homog hh)
    · rename_i hh
      obtain ⟨D, e1, -⟩ := (hleaf i).2 (by simpa using hh)
      rw [e1] at hi; cases hi
  obtain ⟨i1, k2, -⟩ := cube_calls_err ht hcl hin hσ1 hσ2 hr
  rw [eval_eq _ i1.rows] at he
  cases he
  exact k2 x

/-- Solid between the planes `z² = 2`. -/
noncomputable def slabField : ScalarField ℝ :=
  { value := fun p => p.z ^ 2 - 2, grad := fun p => ⟨0, 0, 2 * p.z⟩, material := fun _ _ => .Stone }

theorem slab_value {x y z : Int} : slabField.value (worldPos ⟨0, 0, 0⟩ 1 ⟨x, y, z⟩) ≤ 0 ↔ -1 ≤ z ∧ z ≤ 1 := by
  simp only [slabField, worldPos, mul_one, add_zero]
  have hc : (z : ℝ) ^ 2 - 2 = ((z ^ 2 - 2 : Int) : ℝ) := by push_cast; ring
  rw [hc]
  constructor
  · intro h
    have : z ^ 2 - 2 ≤ 0 := by exact_mod_cast h
    constructor <;> nlinarith
  · rintro ⟨h1, h2⟩
    have : z ^ 2 - 2 ≤ 0 := by nlinarith
    exact_mod_cast this


/-- The octants of the slab's cube: the slab leaves each by one face. -/
theorem slab_safe {g : Grid ℝ} (hv : ∀ x y z, InCube 2 ⟨x, y, z⟩ → materialAt g ⟨x, y, z⟩ = if -1 ≤ z ∧ z ≤ 1 then .Stone else .Empty) (i : Fin 8) :
    TopoSafe (fun p => materialAt g (halfPoint ⟨octCorner ⟨-2, -2, -2⟩ 2 i, 0 + 1⟩ p)) := by
  have hM : ∀ p, HalfGrid p → (if (octOff i).z = 0 then (if p.z = 0 then Material.Empty else .Stone) else if p.z ≤ 1 then Material.Stone else .Empty) =
      materialAt g (halfPoint ⟨octCorner ⟨-2, -2, -2⟩ 2 i, 0 + 1⟩ p) := by
    rintro ⟨x, y, z⟩ hp
    have ex := hp .X; have ey := hp .Y; have ez := hp .Z
    simp only [IVec3.get] at ex ey ez
    have h01 : ∀ i : Fin 8, ((octOff i).x = 0 ∨ (octOff i).x = 1) ∧ ((octOff i).y = 0 ∨ (octOff i).y = 1) ∧ ((octOff i).z = 0 ∨ (octOff i).z = 1) := by decide
    obtain ⟨a, b, c⟩ := h01 i
    simp only [halfPoint, octCorner]
    norm_num
    rw [hv _ _ _ (by simp only [InCube]; omega)]
    rcases c with c | c <;> rw [c]
    · rw [if_pos rfl]
      by_cases hz : z = 0
      · rw [if_pos hz, if_neg (by omega)]
      · rw [if_neg hz, if_pos (by omega)]
    · rw [if_neg (by decide)]
      by_cases hz : z ≤ 1
      · rw [if_pos hz, if_pos (by omega)]
      · rw [if_neg hz, if_neg (by omega)]
  apply topoSafe_congr hM
  rw [← topoSafety_iff]
  revert i
  clear hv
  have h1 : dcTopoSafety (fun p : IVec3 => if p.z = 0 then Material.Empty else .Stone) = true := by decide +kernel
  have h2 : dcTopoSafety (fun p : IVec3 => if p.z ≤ 1 then Material.Stone else .Empty) = true := by decide +kernel
  intro i _
  by_cases h : (octOff i).z = 0
  · simp only [h, if_true]; exact h1
  · simp only [h, if_false]; exact h2

/-- C104 on a concrete case.  With a large enough error bound the octree of the slab consists of eight merged cubes of side 2 (the root is not
topologically safe), all hypotheses of `C104_dc_octree` and `C104_triangle` are met, and the mesh has triangles. -/
example (srt : List (DcEntry ℝ) → List (DcEntry ℝ)) : ∃ (g : Grid ℝ) (env : DcEnv ℝ) (o o' o'' : DcOctree ℝ) (q' : Qef ℝ 3) (epsilon : ℝ) (r : PlacedMesh ℝ),
    0 < env.tiny ∧ Filled g ∧ CleanBuild env.eps env.tiny g Qef.new3 ∧ CubeIn g.maxCoord (rootCube o.level) ∧
    o.build env g Qef.new3 epsilon true = some (q', o') ∧ o'.contour = some (r, o'') ∧
    (∀ c ∈ leafCubes o'.root (rootCube o.level), c.k = 1) ∧ triangles r.mesh.indices ≠ [] := by
  obtain ⟨g, hF, hm, hv⟩ := stone_grid4 slabField (fun _ _ => rfl)
  have hv' : ∀ x y z, InCube 2 ⟨x, y, z⟩ → materialAt g ⟨x, y, z⟩ = if -1 ≤ z ∧ z ≤ 1 then .Stone else .Empty := by
    intro x y z h
    rw [hv _ h]
    by_cases hz : -1 ≤ z ∧ z ≤ 1
    · rw [if_pos hz, if_pos (slab_value.2 hz)]
    · rw [if_neg hz, if_neg fun h => hz (slab_value.1 h)]
  have er : rootCube 2 = ⟨⟨-2, -2, -2⟩, 2⟩ := by decide
  have hin : CubeIn g.maxCoord ⟨⟨-2, -2, -2⟩, 1 + 1⟩ := by
    rintro ⟨x, y, z⟩ hp
    rw [hm]
    simp only [Cube.Closed, Cube.side] at hp
    norm_num at hp
    simp only [InCube]
    omega
  have hp : 0 < (Qef.new3 : Qef ℝ 3).pinvTolerance := by simp only [Qef.new3]; norm_num
  obtain ⟨δ, hδ, hall⟩ := C102_clean hF 0 Qef.new3
  let env : DcEnv ℝ := ⟨0, δ, fun v => v, srt⟩
  have hcl : CleanBuild env.eps env.tiny g Qef.new3 := hall δ hδ le_rfl
  -- a bound that every octant meets
  have hM := fun i : Fin 8 => cubeErr_bounded env.eps g 1 (octCorner ⟨-2, -2, -2⟩ 2 i)
    ![((octCorner ⟨-2, -2, -2⟩ 2 i).x : ℝ), (octCorner ⟨-2, -2, -2⟩ 2 i).y, (octCorner ⟨-2, -2, -2⟩ 2 i).z]
    ![(((octCorner ⟨-2, -2, -2⟩ 2 i).x + 2 ^ 1 : Int) : ℝ), (((octCorner ⟨-2, -2, -2⟩ 2 i).y + 2 ^ 1 : Int) : ℝ), (((octCorner ⟨-2, -2, -2⟩ 2 i).z + 2 ^ 1 : Int) : ℝ)]
  choose M hM0 hM using hM
  let epsilon : ℝ := ∑ i, M i
  have hMe : ∀ i, M i ≤ epsilon := fun i => Finset.single_le_sum (f := M) (fun j _ => hM0 j) (Finset.mem_univ i)
  let o : DcOctree ℝ := ⟨2, ⟨0, 0, 0⟩, 1, .leaf ⟨0, fun _ => .Empty, none, none⟩⟩
  have hin0 : CubeIn g.maxCoord (rootCube o.level) := by show CubeIn _ (rootCube 2); rw [er]; exact hin
  obtain ⟨q', o', r, o'', hb, -, hc⟩ := C22_completes (env := env) hF o epsilon (simplify := true) hin0 hp (Or.inr (by decide))
  have hb0 := hb
  unfold DcOctree.build at hb
  split at hb
  · cases hb
  rename_i q root hn
  cases hb
  have esc : epsilon / (o.globalScale * o.globalScale) = epsilon := by show epsilon / (1 * 1) = epsilon; norm_num
  rw [esc] at hn
  have elo : rootCorner o.level = ⟨-2, -2, -2⟩ := by decide
  rw [elo] at hn
  change dcBuildNode env g epsilon true (1 + 1) 0 ⟨-2, -2, -2⟩ Qef.new3 = some (q', root) at hn
  -- every octant is a leaf
  have hoct : ∀ (i : Fin 8) (depth : Nat) (qi qi' : Qef ℝ 3) (t : DcNode ℝ), SameOptions Qef.new3 qi →
      dcBuildNode env g epsilon true (0 + 1) depth (octCorner ⟨-2, -2, -2⟩ (2 ^ 1) i) qi = some (qi', t) → ∃ l, t = .leaf l := by
    intro i depth qi qi' t hs hbi
    have hini := cubeIn_octant hin i
    obtain ⟨ch, hch, hcase⟩ := C24_collapse hF hini hbi
    rcases hcase with ⟨l, -, -, corners, rfl, -⟩ | ⟨l, x, err, -, -, -, -, -, -, corners, normal, s, rfl, -⟩ | ⟨-, ⟨j, d', c, hj⟩ | ⟨-, hs' | ht' | ⟨l, x, err, hl, hfit, hlt⟩⟩⟩
    · exact ⟨_, rfl⟩
    · exact ⟨_, rfl⟩
    · obtain ⟨qj, qj', -, hbj⟩ := hch j
      have := dcBuildNode_ok hF _ _ _ _ _ _ (cubeIn_octant hini j) hbj
      rw [hj] at this
      exact absurd this (by simp [TreeOK])
    · cases hs'
    · exact absurd (slab_safe hv' i) ht'
    · exfalso
      have hleaf : ∀ j, LeafOK g ⟨octCorner (octCorner ⟨-2, -2, -2⟩ (2 ^ 1) i) (2 ^ 0) j, 0⟩ (l j) ∧
          ErrLeaf env g Qef.new3 epsilon (⟨octCorner (octCorner ⟨-2, -2, -2⟩ (2 ^ 1) i) (2 ^ 0) j, 0⟩, l j) := by
        intro j
        obtain ⟨qj, qj', hsj, hbj⟩ := hch j
        rw [hl j] at hbj
        have h1 := dcBuildNode_ok hF _ _ _ _ _ _ (cubeIn_octant hini j) hbj
        have h2 := err_node hδ hF hcl _ _ _ _ _ _ (cubeIn_octant hini j) (sameOptions_trans hs hsj) hbj
        exact ⟨h1.1, h2 _ (by simp [locate, Oct.leaves])⟩
      have e := fit_cubeErr hδ hF hcl hini hleaf hs hfit
      obtain ⟨qa, qv, -, hsol, -⟩ := hfit
      have hbox := C38_box env.tiny _ _ _ _ _ hsol (by
        intro a
        fin_cases a <;> exact RoundedLaws.cast_mono _ _ (Int.le_add_of_nonneg_right (by norm_num)))
      have := hM i x hbox
      rw [e] at hlt
      exact absurd (hlt.trans_le this) (not_lt.2 (hMe i))
  obtain ⟨ch, hch, hcase⟩ := C24_collapse hF hin hn
  have hleaves : ∀ i, ∃ l, ch i = .leaf l := fun i => by
    obtain ⟨qi, qi', hs, hbi⟩ := hch i
    exact hoct i _ _ _ _ hs hbi
  have hroot : root = .inner 0 ch := by
    rcases hcase with ⟨l, -, hno, -⟩ | ⟨l, x, err, -, -, -, ht', -⟩ | ⟨h, -⟩
    · exfalso
      refine hno 7 ⟨0, 7, ?_⟩
      rw [solidAt_material, solidAt_material]
      show decide (materialAt g ⟨0, 0, 0⟩ ≠ _) ≠ decide (materialAt g ⟨2, 2, 2⟩ ≠ _)
      rw [hv' 0 0 0 (by decide), hv' 2 2 2 (by decide)]
      simp
    · exfalso
      obtain ⟨⟨x, y, z⟩, hp', hp1, he⟩ := ht'.centre
      have ex := hp' .X; have ey := hp' .Y; have ez := hp' .Z
      have nx := hp1 .X; have ny := hp1 .Y; have nz := hp1 .Z
      simp only [IVec3.get] at ex ey ez nx ny nz
      simp only [halfPoint] at he
      norm_num at he
      rw [hv' _ _ _ (by decide), hv' _ _ _ (by simp only [InCube]; omega)] at he
      rw [if_pos (by decide), if_neg (by omega)] at he
      simp at he
    · exact h
  have hcubes : leafCubes root (rootCube o.level) = (List.finRange 8).map fun i => ⟨octCorner ⟨-2, -2, -2⟩ 2 i, 1⟩ := by
    show leafCubes root (rootCube 2) = _
    rw [hroot, er]
    choose l hl using hleaves
    obtain rfl : ch = fun i => .leaf (l i) := funext hl
    simp only [leafCubes, locate, Oct.leaves]
    rfl
  refine ⟨g, env, o, _, o'', q', epsilon, r, hδ, hF, hcl, hin0, hb0, hc, ?_, ?_⟩
  · intro c hcm
    dsimp only at hcm
    rw [hcubes] at hcm
    obtain ⟨i, -, rfl⟩ := List.mem_map.1 hcm
    rfl
  · obtain ⟨r', o1, visits, hc', -, -, -, hvis, htri, hcells, -, hnd, -⟩ := C22_contour hF hin0 hb0
    rw [hc] at hc'; cases hc'
    have hmin : MinimalSeg (leafCubes root (rootCube o.level)) .Z ⟨0, 0, 0⟩ 1 (fun i => ⟨Spec.edgeCorner .Z ⟨0, 0, 0⟩ 2 i, 1⟩) := by
      rw [hcubes]
      refine ⟨by decide, fun i => ?_, ⟨0, rfl⟩⟩
      exact ⟨⟨le_rfl, le_rfl⟩, ⟨le_rfl, le_rfl⟩, ⟨le_rfl, le_rfl⟩⟩
    have hs : solidAt g ⟨0, 0, 0⟩ ≠ solidAt g (segEnd .Z ⟨0, 0, 0⟩ (2 ^ 1)) := by
      rw [solidAt_material, solidAt_material]
      show decide (materialAt g ⟨0, 0, 0⟩ ≠ _) ≠ decide (materialAt g ⟨0, 0, 2⟩ ≠ _)
      rw [hv' 0 0 0 (by decide), hv' 0 0 2 (by decide)]
      simp
    have hmem := hcells _ _ _ _ hmin hs
    intro h0
    rw [htri, List.flatMap_eq_nil_iff] at h0
    have h1 := h0 _ ((hvis _ _ _ _).2 hmin)
    dsimp only at h1
    unfold octEdgeQuad at h1
    rw [if_neg hs] at h1
    have hne : ∀ i j : Fin 4, i ≠ j → ((leafCubes root (rootCube o.level)).filter fun c => decide (Hetero g c)).idxOf (⟨Spec.edgeCorner .Z ⟨0, 0, 0⟩ 2 i, 1⟩ : Cube) ≠
        ((leafCubes root (rootCube o.level)).filter fun c => decide (Hetero g c)).idxOf (⟨Spec.edgeCorner .Z ⟨0, 0, 0⟩ 2 j, 1⟩ : Cube) := by
      intro i j hij h
      have := (List.idxOf_inj (hmem i)).1 h
      clear h
      revert hij this
      revert i j
      decide
    unfold octQuad at h1
    have a := hne 0 1 (by decide); have b := hne 1 2 (by decide); have c := hne 0 2 (by decide)
    have a' := hne 2 1 (by decide)
    split at h1
    · rw [List.filter_cons_of_pos (by simpa using ⟨a, b, c⟩)] at h1
      cases h1
    · rw [List.filter_cons_of_pos (by simpa using ⟨c, a', a⟩)] at h1
      cases h1

end Isomesh
