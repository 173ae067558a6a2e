import Verif.Props.PlaneCollapse
import Verif.Props.FlatMdc
import Verif.Props.DcDemo

/-! Concrete cases for C70 and C71. -/

namespace Isomesh
open Spec

/-- With `eps = 0` the stored normal is the unit vector of the gradient. -/
theorem edgeNormal_zero {n : Vec3 ℝ} (h : n ≠ ⟨0, 0, 0⟩) : edgeNormal 0 n = unitVec n := by
  have hl := unitVec_ne h
  have hsq := length_sq n
  have hy : 1 - n.x / n.length * (n.x / n.length) - n.z / n.length * (n.z / n.length) = (n.y / n.length) ^ 2 := by
    field_simp
    nlinarith
  unfold edgeNormal PackedNormal.surfaceNormal packNormal unitVec
  simp only [add_zero, hy]
  rw [max_eq_right (sq_nonneg _), elem_sqrt, Real.sqrt_sq_eq_abs, abs_div, abs_of_pos hl]
  ext
  · rfl
  · simp only [decide_eq_true_eq]
    split
    · rename_i hneg
      rw [abs_of_neg hneg]; ring
    · rename_i hneg
      rw [abs_of_nonneg (not_lt.1 hneg)]
  · rfl

/-- The directions to which C70 and C71 apply in exact arithmetic: all but those with a tiny non-zero component. -/
theorem goodDirection_exact {env : DcEnv ℝ} {n : Vec3 ℝ} (he : env.eps = 0) (ht : 0 < env.tiny) (h : n ≠ ⟨0, 0, 0⟩)
    (hs : ∀ a : Axis, n.get a = 0 ∨ env.tiny * n.length ^ 2 ≤ n.get a ^ 2) : GoodDirection env n := by
  have hl := unitVec_ne h
  refine ⟨ht, ⟨1 / n.length, by positivity, ?_⟩, ?_⟩
  · rw [he, edgeNormal_zero h, unitVec]
    ext <;> simp only <;> ring
  · intro a
    rw [he, edgeNormal_zero h]
    have e : (unitVec n).get a = n.get a / n.length := by cases a <;> rfl
    rw [e]
    rcases hs a with h0 | h0
    · left; rw [h0, zero_div]
    · right
      rw [div_pow, le_div_iff₀ (by positivity)]
      exact h0

/-- Vertical directions are stored exactly whatever `eps` is. -/
theorem goodDirection_vertical {env : DcEnv ℝ} {y : ℝ} (hy : y ≠ 0) (ht : 0 < env.tiny) (ht1 : env.tiny ≤ 1) : GoodDirection env ⟨0, y, 0⟩ := by
  have e : edgeNormal env.eps ⟨0, y, 0⟩ = ⟨0, if y < 0 then -1 else 1, 0⟩ := by
    unfold edgeNormal PackedNormal.surfaceNormal packNormal
    simp
  have ha := abs_pos.2 hy
  refine ⟨ht, ⟨1 / |y|, by positivity, ?_⟩, ?_⟩
  · rw [e]
    ext
    · simp
    · simp only
      split
      · rename_i h
        rw [abs_of_neg h]; field_simp
      · rename_i h
        rw [abs_of_nonneg (not_lt.1 h)]; field_simp
    · simp
  · intro a
    rw [e]
    cases a
    · left; rfl
    · right
      simp only [Vec3.get]
      split <;> simpa using ht1
    · left; rfl

/-- The half-space `x + y + z ≤ 1/2`, its surface is not parallel to any axis. -/
noncomputable def tiltField : ScalarField ℝ :=
  { value := fun p => p.x + p.y + p.z - 1 / 2, grad := fun _ => ⟨1, 1, 1⟩, material := fun _ _ => .Stone }

theorem tilt_plane : PlaneField tiltField ⟨1, 1, 1⟩ (-1 / 2) :=
  ⟨fun p => by simp only [tiltField]; ring, fun _ => rfl, fun h => by have := congrArg Vec3.x h; norm_num at this⟩

theorem tilt_material : OneMaterial tiltField .Stone := ⟨by decide, fun _ _ => rfl⟩

/-- Exact arithmetic (`eps = 0`), with `tiny` the value of `numeric_limits<float>::min ()`. -/
noncomputable def exactEnv (srt : List (DcEntry ℝ) → List (DcEntry ℝ)) : DcEnv ℝ :=
  ⟨0, 1 / 2 ^ 126, fun v => ⟨v.x / v.length, v.y / v.length, v.z / v.length⟩, srt⟩

theorem exactEnv_normalize (srt) : TrueNormalize (exactEnv srt).normalize := fun _ _ => rfl

theorem tilt_direction (srt) : GoodDirection (exactEnv srt) ⟨1, 1, 1⟩ := by
  refine goodDirection_exact rfl (by norm_num [exactEnv]) (fun h => by have := congrArg Vec3.x h; norm_num at this) ?_
  intro a
  right
  rw [length_sq]
  cases a <;> simp only [exactEnv, Vec3.get] <;> norm_num

/-- The hypotheses of C70 are met by a tilted plane through a grid of size 2 and the octrees of side 2 over it; the surface is not empty. -/
theorem tilt_demo (srt : List (DcEntry ℝ) → List (DcEntry ℝ)) (steps : Int) : ∃ g g' : Grid ℝ, g.Reachable ∧ 0 < g.step ∧ ProperField tiltField ∧
    g.fill tiltField (regulaFalsiFinder 0 steps) = some g' ∧ CrossingEdge g' .X ⟨0, 0, 0⟩ ∧
    (∃ r, marchingCubes id g' = some r) ∧ (IsSort srt → ∃ q r, dualContouring (exactEnv srt) g' Qef.new3 = some (q, r)) ∧
    (∀ (epsilon : ℝ) (simplify : Bool), ∃ (o o' o'' : DcOctree ℝ) (q' : Qef ℝ 3) (r : PlacedMesh ℝ), o.level ≤ 9 ∧ o.globalPos = g.globalPos ∧ o.globalScale = g.step ∧
      CubeIn g'.maxCoord (rootCube o.level) ∧ o.build (exactEnv srt) g' Qef.new3 epsilon simplify = some (q', o') ∧ o'.contour = some (r, o'')) ∧
    ∃ (o o' o1 o2 : MdcOctree ℝ) (q' : Qef ℝ 3) (r : PlacedMesh ℝ), o.globalPos = g.globalPos ∧ o.globalScale = g.step ∧ o.level ≤ 9 ∧
      CubeIn g'.maxCoord (rootCube o.level) ∧
      o.build (exactEnv srt) g' Qef.new3 = some (q', o') ∧ contourAll o' [1, -1] = some o1 ∧ o1.contour (-1) = some (r, o2) := by
  obtain ⟨g, hg⟩ : ∃ g0, Grid.mk' 2 (⟨0, 0, 0⟩ : Vec3 ℝ) 1 = .ok g0 := ⟨_, rfl⟩
  have hre : g.Reachable := .mk hg
  have hgp : g.globalPos = ⟨0, 0, 0⟩ ∧ g.step = 1 ∧ g.maxCoord = 1 := by
    cases hg; exact ⟨rfl, rfl, rfl⟩
  have hprop : ProperField tiltField := oneMaterial_proper tilt_material
  obtain ⟨g', hfill, ⟨hsz, hhf, hpos, hst⟩, hat⟩ := C06_fill_materials hre tiltField (regulaFalsiFinder 0 steps)
  have hF := C07_filled hre hprop hfill
  have hm' : g'.maxCoord = 1 := by rw [← hgp.2.2]; exact hhf
  have hin := cubeIn_demo hm'
  have hp : 0 < (Qef.new3 : Qef ℝ 3).pinvTolerance := by simp only [Qef.new3]; norm_num
  refine ⟨g, g', hre, by rw [hgp.2.1]; norm_num, hprop, hfill, ?_, ?_, ?_, ?_, ?_⟩
  · refine ⟨by rw [hm']; decide, ?_⟩
    rw [solidAt_fill hre hprop hfill (by rw [hm']; decide), solidAt_fill hre hprop hfill (by rw [hm']; decide), hgp.1, hgp.2.1]
    simp only [edgeEnd, shift]
    intro hd
    replace hd := decide_eq_decide.1 hd
    simp only [tiltField, worldPos] at hd
    norm_num at hd
  · obtain ⟨r, hr, -⟩ := C15_valid hF id
    exact ⟨r, hr⟩
  · intro hs
    obtain ⟨-, q, r, h, -⟩ := C18_vertices (env := exactEnv srt) hF hs hp
    exact ⟨q, r, h⟩
  · intro epsilon simplify
    let o : DcOctree ℝ := ⟨1, ⟨0, 0, 0⟩, 1, .leaf ⟨0, fun _ => .Empty, none, none⟩⟩
    obtain ⟨q', o', r, o'', hb, -, hc⟩ := C22_completes (env := exactEnv srt) hF o epsilon (simplify := simplify) hin hp (Or.inr (by decide))
    exact ⟨o, o', o'', q', r, by decide, hgp.1.symm, hgp.2.1.symm, hin, hb, hc⟩
  · obtain ⟨o, ho, ho1, ho2⟩ : ∃ o : MdcOctree ℝ, o.level = 1 ∧ o.globalPos = g.globalPos ∧ o.globalScale = g.step :=
      ⟨⟨1, g.globalPos, g.step, .leaf ⟨0, fun _ => .Empty, 0, []⟩, []⟩, rfl, rfl, rfl⟩
    have hsz : 4 * crossingCells g' (rootCube o.level) + 3 < 2 ^ 32 := C28_sizes g' (by rw [ho]; norm_num)
    have hs : o.globalScale ≠ 0 := by rw [ho2, hgp.2.1]; exact one_ne_zero
    rw [← ho] at hin
    obtain ⟨q', o', o1, hb, -⟩ := C28_completes (env := exactEnv srt) hF o hin (mul_self_pos.2 hs) hp (Or.inr (by rw [ho]; decide)) [1, -1]
    obtain ⟨M, V, -, hall⟩ := C28_contour hF hin hsz (mul_self_pos.2 hs) hb
    obtain ⟨o1', e1, e2⟩ := hall [1, -1]
    obtain ⟨o2, e3⟩ := e2 (-1)
    exact ⟨o, o', o1', o2, q', _, ho1, ho2, by rw [ho]; decide, hin, hb, e1, e3⟩

/-- C71 on a concrete case: the mesh of the octree over the tilted plane, which crosses the grid, is empty of triangles when simplified
with the bound 0. -/
example (srt : List (DcEntry ℝ) → List (DcEntry ℝ)) : ∃ (g g' : Grid ℝ) (o o' o'' : DcOctree ℝ) (q' : Qef ℝ 3) (r : PlacedMesh ℝ), g.Reachable ∧
    g.fill tiltField (regulaFalsiFinder 0 16) = some g' ∧ CrossingEdge g' .X ⟨0, 0, 0⟩ ∧
    o.build (exactEnv srt) g' Qef.new3 0 true = some (q', o') ∧ o'.contour = some (r, o'') ∧ r.mesh.indices = [] := by
  obtain ⟨g, g', h1, h2, h3, h4, h5, -, -, h6, -⟩ := tilt_demo srt 16
  obtain ⟨o, o', o'', q', r, k1, k2, k3, k4, k5, k6⟩ := h6 0 true
  exact ⟨g, g', o, o', o'', q', r, h1, h4, h5, k5, k6,
    (C71_plane_vanishes h1 h2 tilt_plane tilt_material h4 (tilt_direction srt) (le_refl 0) k1 k4 k5 k6).2.1⟩

end Isomesh
