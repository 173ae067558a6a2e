import Verif.Proofs.PlacementMesh
import Verif.Props.DmcBuild
import Verif.Props.DcDemo

/-! C77: results do not depend on where the grid or the octree is placed and on its scale. -/

namespace Isomesh
open Spec

section
variable {K : Type} [Field K] [LinearOrder K] [IsStrictOrderedRing K]

/-- The two zero finders of the library. -/
inductive LibrarySolver : ZeroFinder K → Prop
  | bisection (steps : Int) : LibrarySolver (bisectionFinder steps)
  | regulaFalsi (nan : K) (steps : Int) : LibrarySolver (regulaFalsiFinder nan steps)

theorem LibrarySolver.moves {sv : ZeroFinder K} (h : LibrarySolver sv) {s : K} (hs : 0 < s) {t : Vec3 K} {f f' : ScalarField K}
    (hf : Similar s t f f') : MovesWith s t f f' sv := by
  cases h with
  | bisection steps => exact bisection_movesWith hs hf steps
  | regulaFalsi nan steps => exact regulaFalsi_movesWith hs hf nan steps

/-- Two grids of the same size, the second scaled by `s` and moved by `t`, filled with the field of a body and with the field of
the body scaled and moved in the same way. -/
structure TwoFills (s : K) (t : Vec3 K) (a' b' : Grid K) : Prop where
  pos : 0 < s
  fills : ∃ (a b : Grid K) (f f' : ScalarField K) (sv : ZeroFinder K), a.Reachable ∧ b.Reachable ∧ LibrarySolver sv ∧
    Similar s t f f' ∧ b.size = a.size ∧ b.globalPos = moved s t a.globalPos ∧ b.step = s * a.step ∧
    a.fill f sv = some a' ∧ b.fill f' sv = some b'

theorem TwoFills.place {s : K} {t : Vec3 K} {a' b' : Grid K} (h : TwoFills s t a' b') :
    b' = a'.place (moved s t a'.globalPos) (s * a'.step) := by
  obtain ⟨hs, a, b, f, f', sv, ha, hb, hv, hf, h1, h2, h3, ea, eb⟩ := h
  have hm : MovedGrid s t a b := by
    refine ⟨h1, ?_, h2, h3⟩
    have := ha.wf.half_eq
    have := hb.wf.half_eq
    omega
  obtain ⟨a2, e, _, _, e1, e2, _⟩ := fill_spec ha.wf f sv
  rw [ea] at e
  cases e
  rw [e1, e2]
  exact fill_moved hs hf (hv.moves hs hf) ha.wf hb.wf hm ea eb

/-- C77: `fill` stores the same materials and the same edge records (places within the edges, gradients, materials) in a grid
that was scaled and moved together with the body. -/
theorem C77_fill {s : K} {t : Vec3 K} {a' b' : Grid K} (h : TwoFills s t a' b') :
    b'.mat = a'.mat ∧ (∀ D, b'.edges D = a'.edges D) ∧ b'.globalPos = moved s t a'.globalPos ∧ b'.step = s * a'.step := by
  rw [h.place]
  exact ⟨rfl, fun D => by cases D <;> rfl, rfl, rfl⟩

theorem sameMoved_place {s : K} {t : Vec3 K} (m : PlacedMesh K) :
    SameMoved s t m ⟨m.mesh, moved s t m.globalPos, s * m.globalScale⟩ := by
  refine ⟨rfl, fun p => ?_⟩
  simp only [toWorld, moved, Vec3.mk.injEq]
  refine ⟨?_, ?_, ?_⟩ <;> ring

/-- C77: marching cubes makes the same mesh from the scaled and moved grid, in the scaled and moved place. -/
theorem C77_marching_cubes {s : K} {t : Vec3 K} {a' b' : Grid K} (h : TwoFills s t a' b') (nrm : Vec3 K → Vec3 K) {m : PlacedMesh K}
    (hm : marchingCubes nrm a' = some m) : ∃ m', marchingCubes nrm b' = some m' ∧ SameMoved s t m m' := by
  have hp : m.globalPos = a'.globalPos ∧ m.globalScale = a'.step := by
    unfold marchingCubes at hm
    simp only [Option.bind_eq_bind, Option.bind_eq_some_iff, Option.some.injEq] at hm
    obtain ⟨_, _, _, _, _, _, _, _, rfl⟩ := hm
    exact ⟨rfl, rfl⟩
  rw [h.place, mc_place, hm]
  refine ⟨_, rfl, ?_⟩
  rw [← hp.1, ← hp.2]
  exact sameMoved_place m
end

noncomputable section

/-- C77: uniform dual contouring makes the same mesh from the scaled and moved grid, in the scaled and moved place. -/
theorem C77_dual_contouring {s : ℝ} {t : Vec3 ℝ} {a' b' : Grid ℝ} (h : TwoFills s t a' b') (env : DcEnv ℝ) (q : Qef ℝ 3)
    {r : Qef ℝ 3 × PlacedMesh ℝ} (hr : dualContouring env a' q = some r) :
    ∃ m', dualContouring env b' q = some (r.1, m') ∧ SameMoved s t r.2 m' := by
  have hp : r.2.globalPos = a'.globalPos ∧ r.2.globalScale = a'.step := by
    unfold dualContouring at hr
    simp only [Option.bind_eq_bind, Option.bind_eq_some_iff, Option.some.injEq] at hr
    obtain ⟨_, _, _, _, _, _, _, _, _, _, _, _, _, _, rfl⟩ := hr
    exact ⟨rfl, rfl⟩
  rw [h.place, dc_place, hr]
  refine ⟨_, rfl, ?_⟩
  rw [← hp.1, ← hp.2]
  exact sameMoved_place r.2

/-- C77: a DC octree built from the scaled and moved grid, with the threshold scaled by the square of the factor, is the same
tree, and its mesh is the same in the scaled and moved place. -/
theorem C77_dc_octree {s : ℝ} {t : Vec3 ℝ} {a' b' : Grid ℝ} (h : TwoFills s t a' b') (env : DcEnv ℝ) {o o' : DcOctree ℝ}
    (hl : o'.level = o.level) (hp : o'.globalPos = moved s t o.globalPos) (hs : o'.globalScale = s * o.globalScale)
    (q : Qef ℝ 3) (ε : ℝ) (simplify : Bool) {q1 : Qef ℝ 3} {o1 o1' : DcOctree ℝ} {m : PlacedMesh ℝ}
    (hb : o.build env a' q ε simplify = some (q1, o1)) (hc : o1.contour = some (m, o1')) :
    ∃ o2 o2' m', o'.build env b' q (s ^ 2 * ε) simplify = some (q1, o2) ∧ o2.root = o1.root ∧ o2.contour = some (m', o2') ∧
      o2'.root = o1'.root ∧ SameMoved s t m m' := by
  have he : s ^ 2 * ε / (o'.globalScale * o'.globalScale) = ε / (o.globalScale * o.globalScale) := by
    rw [hs, show s * o.globalScale * (s * o.globalScale) = s ^ 2 * (o.globalScale * o.globalScale) by ring,
      mul_div_mul_left _ _ (pow_ne_zero 2 h.pos.ne')]
  unfold DcOctree.build at hb ⊢
  rw [he, h.place, hl, dcBuildNode_place]
  cases hn : dcBuildNode env a' (ε / (o.globalScale * o.globalScale)) simplify o.level 0 (rootCorner o.level) q with
  | none => rw [hn] at hb; simp at hb
  | some r =>
    rw [hn] at hb
    simp only [Option.some.injEq, Prod.mk.injEq] at hb
    obtain ⟨rfl, rfl⟩ := hb
    refine ⟨{ o' with root := r.2 }, ?_⟩
    unfold DcOctree.contour at hc ⊢
    simp only [Option.bind_eq_bind, Option.bind_eq_some_iff, Option.some.injEq, Prod.mk.injEq] at hc
    obtain ⟨x, e1, y, e2, rfl, rfl⟩ := hc
    refine ⟨{ o' with root := x.2 }, ⟨y, o'.globalPos, o'.globalScale⟩, by rw [hl], rfl, ?_, rfl, ?_⟩
    · simp only [e1, e2, Option.bind_eq_bind, Option.bind_some]
    · rw [hp, hs]
      exact sameMoved_place ⟨y, o.globalPos, o.globalScale⟩

/-- C77: an MDC octree built from the scaled and moved grid is the same tree; its mesh for the threshold scaled by the square of
the factor is the same in the scaled and moved place. -/
theorem C77_mdc_octree {s : ℝ} {t : Vec3 ℝ} {a' b' : Grid ℝ} (h : TwoFills s t a' b') (env : DcEnv ℝ) {o o' : MdcOctree ℝ}
    (hl : o'.level = o.level) (hp : o'.globalPos = moved s t o.globalPos) (hs : o'.globalScale = s * o.globalScale)
    (q : Qef ℝ 3) {q1 : Qef ℝ 3} {o1 : MdcOctree ℝ} (hb : o.build env a' q = some (q1, o1)) :
    ∃ o2, o'.build env b' q = some (q1, o2) ∧ o2.root = o1.root ∧ o2.heap = o1.heap ∧
      ∀ (ε : ℝ) (m : PlacedMesh ℝ) (o1' : MdcOctree ℝ), o1.contour ε = some (m, o1') →
        ∃ o2' m', o2.contour (s ^ 2 * ε) = some (m', o2') ∧ o2'.heap = o1'.heap ∧ SameMoved s t m m' := by
  have he : ∀ ε : ℝ, s ^ 2 * ε / (o'.globalScale * o'.globalScale) = ε / (o.globalScale * o.globalScale) := by
    intro ε
    rw [hs, show s * o.globalScale * (s * o.globalScale) = s ^ 2 * (o.globalScale * o.globalScale) by ring,
      mul_div_mul_left _ _ (pow_ne_zero 2 h.pos.ne')]
  unfold MdcOctree.build at hb ⊢
  rw [h.place, hl, mdcBuildNode_place]
  cases hn : mdcBuildNode env a' o.level 0 (rootCorner o.level) (q, []) with
  | none => rw [hn] at hb; simp at hb
  | some r =>
    rw [hn] at hb
    simp only at hb ⊢
    cases hn2 : mdcClusterCell env r.2 (rootCorner o.level) o.level r.1 with
    | none => rw [hn2] at hb; simp at hb
    | some r2 =>
      rw [hn2] at hb
      simp only [Option.some.injEq, Prod.mk.injEq] at hb
      obtain ⟨rfl, rfl⟩ := hb
      refine ⟨{ o' with root := r2.2, heap := r2.1.2 }, by rw [hl], rfl, rfl, ?_⟩
      intro ε m o1' hc
      unfold MdcOctree.contour at hc ⊢
      simp only [Option.bind_eq_bind, Option.bind_eq_some_iff, Option.some.injEq, Prod.mk.injEq] at hc
      obtain ⟨x, e1, y, e2, rfl, rfl⟩ := hc
      refine ⟨{ o' with root := r2.2, heap := x.1 }, ⟨y, o'.globalPos, o'.globalScale⟩, ?_, rfl, ?_⟩
      · simp only [he, e1, e2, Option.bind_eq_bind, Option.bind_some]
      · rw [hp, hs]
        exact sameMoved_place ⟨y, o.globalPos, o.globalScale⟩

variable {R : Type}

/-- C77: a DMC octree built from the field of the scaled and moved body, with the threshold scaled by the square of the factor,
is the same tree, provided that the simple splitting policy is off or nothing is scaled; its mesh is the same in the scaled and
moved place. -/
theorem C77_dmc_octree {s : ℝ} (hs : 0 < s) {t : Vec3 ℝ} {f f' : ScalarField ℝ} (hf : Similar s t f f') (env : DmcEnv ℝ R)
    {o o' : DmcOctree ℝ} (hl : o'.level = o.level) (hp : o'.globalPos = moved s t o.globalPos)
    (hsc : o'.globalScale = s * o.globalScale) (q : Qef ℝ 4) (ε : ℝ) (flags : DmcFlags) (seed : Nat)
    (hw : s = 1 ∨ flags.simpleSplit = false) {q1 : Qef ℝ 4} {o1 : DmcOctree ℝ}
    (hb : o.build env f q ε flags seed = some (q1, o1)) :
    ∃ o2, o'.build env f' q (s ^ 2 * ε) flags seed = some (q1, o2) ∧ o2.root = o1.root ∧
      ∀ normalize junk m, o1.contour normalize junk = some m → ∃ m', o2.contour normalize junk = some m' ∧ SameMoved s t m m' := by
  have he : s ^ 2 * ε / (o'.globalScale * o'.globalScale) = ε / (o.globalScale * o.globalScale) := by
    rw [hsc, show s * o.globalScale * (s * o.globalScale) = s ^ 2 * (o.globalScale * o.globalScale) by ring,
      mul_div_mul_left _ _ (pow_ne_zero 2 hs.ne')]
  have hm : MovedArgs s t (⟨env, o, f, ε / (o.globalScale * o.globalScale), flags⟩ : DmcArgs ℝ R)
      ⟨env, o', f', ε / (o.globalScale * o.globalScale), flags⟩ := ⟨rfl, rfl, rfl, hl, hp, hsc, hf⟩
  unfold DmcOctree.build at hb ⊢
  rw [he, hl, hm.build hs hw]
  cases hn : dmcBuildNode (⟨env, o, f, ε / (o.globalScale * o.globalScale), flags⟩ : DmcArgs ℝ R) o.level (rootCorner o.level)
      (q, env.seed seed) with
  | none => rw [hn] at hb; simp at hb
  | some r =>
    rw [hn] at hb
    simp only [Option.some.injEq, Prod.mk.injEq] at hb
    obtain ⟨rfl, rfl⟩ := hb
    refine ⟨{ o' with root := r.2 }, by rw [hl], rfl, ?_⟩
    intro normalize junk m hc
    unfold DmcOctree.contour at hc ⊢
    simp only [Option.bind_eq_bind, Option.bind_eq_some_iff, Option.some.injEq] at hc
    obtain ⟨x, e1, rfl⟩ := hc
    refine ⟨⟨x.mesh, o'.globalPos, o'.globalScale⟩, ?_, ?_⟩
    · simp only [e1, Option.bind_eq_bind, Option.bind_some]
    · rw [hp, hsc]
      exact sameMoved_place ⟨x.mesh, o.globalPos, o.globalScale⟩

theorem midpointError_moved {s : ℝ} (hs : 0 < s) {t : Vec3 ℝ} {f f' : ScalarField ℝ} (hf : Similar s t f f') {o o' : DmcOctree ℝ}
    (hp : o'.globalPos = moved s t o.globalPos) (hsc : o'.globalScale = s * o.globalScale) (c : Cube) :
    midpointError o' f' c = s * midpointError o f c := by
  have hg : ∀ u, cellPoint o' c u = moved s t (cellPoint o c u) := by
    intro u
    unfold cellPoint DmcOctree.localToGlobal
    rw [hp, hsc]
    simp only [moved, Vec3.mk.injEq]
    refine ⟨?_, ?_, ?_⟩ <;> ring
  have ht : ∀ u, trilinear o' f'.value c u = s * trilinear o f.value c u := by
    intro u
    unfold trilinear
    simp only [hg, hf.value, Finset.mul_sum]
    refine Finset.sum_congr rfl fun x _ => Finset.sum_congr rfl fun y _ => Finset.sum_congr rfl fun z _ => by ring
  have hi : ∀ u, interpolationError o' f' c u = s * interpolationError o f c u := by
    intro u
    unfold interpolationError
    rw [ht, hg, hf.value, hf.grad, ← mul_sub, abs_mul, abs_of_pos hs, mul_div_assoc]
  unfold midpointError
  simp only [hi, Finset.mul_sum, mul_ite, mul_zero]

/-- C77: why the simple splitting policy is excluded: with the threshold scaled by the square of the factor, the decision of
the simple policy for a cell of the scaled world compares the threshold with `s` times the error. -/
theorem C77_simple_policy {s : ℝ} (hs : 0 < s) {t : Vec3 ℝ} {f f' : ScalarField ℝ} (hf : Similar s t f f') (env : DmcEnv ℝ R)
    {o o' : DmcOctree ℝ} (hp : o'.globalPos = moved s t o.globalPos) (hsc : o'.globalScale = s * o.globalScale) (ε : ℝ)
    (flags : DmcFlags) (c : Cube) :
    (dmcShouldSplit (dmcArgs env o f ε flags) c.lo c.k = true ↔
      ε / (o.globalScale * o.globalScale) < midpointError o f c) ∧
    (dmcShouldSplit (dmcArgs env o' f' (s ^ 2 * ε) flags) c.lo c.k = true ↔
      ε / (o.globalScale * o.globalScale) < s * midpointError o f c) := by
  refine ⟨C63_should_split _ _ _, ?_⟩
  rw [C63_should_split, ← midpointError_moved hs hf hp hsc]
  have he : s ^ 2 * ε / (o'.globalScale * o'.globalScale) = ε / (o.globalScale * o.globalScale) := by
    rw [hsc, show s * o.globalScale * (s * o.globalScale) = s ^ 2 * (o.globalScale * o.globalScale) by ring,
      mul_div_mul_left _ _ (pow_ne_zero 2 hs.ne')]
  show s ^ 2 * ε / (o'.globalScale * o'.globalScale) < _ ↔ _
  rw [he]
  exact Iff.rfl

/-- The hypotheses can be met: a grid around the ball and the same scaled by three and moved. -/
theorem twoFills_case : ∃ a' b' : Grid ℝ, TwoFills 3 ⟨1, 2, -5⟩ a' b' ∧ Filled a' ∧ CrossingEdge a' .X ⟨0, 0, 0⟩ ∧
    a'.step = 1 ∧ b'.step = 3 ∧ b'.globalPos = ⟨1, 2, -5⟩ := by
  obtain ⟨g0, h0⟩ : ∃ g0, Grid.mk' 2 (⟨0, 0, 0⟩ : Vec3 ℝ) 1 = .ok g0 := ⟨_, rfl⟩
  obtain ⟨g1, h1⟩ : ∃ g1, Grid.mk' 2 (⟨1, 2, -5⟩ : Vec3 ℝ) 3 = .ok g1 := ⟨_, rfl⟩
  have hr : g0.Reachable := .mk h0
  have hr1 : g1.Reachable := .mk h1
  have hmax : g0.maxCoord = 1 := by cases h0; rfl
  have hpos : g0.globalPos = ⟨0, 0, 0⟩ := by cases h0; rfl
  have hst : g0.step = 1 := by cases h0; rfl
  have hpos1 : g1.globalPos = ⟨1, 2, -5⟩ := by cases h1; rfl
  have hst1 : g1.step = 3 := by cases h1; rfl
  have hsz : g1.size = g0.size := by cases h0; cases h1; rfl
  obtain ⟨a', e, ⟨hs, hh, -, hs3⟩, hm⟩ := C06_fill_materials hr ballField (bisectionFinder 8)
  obtain ⟨b', e1, ⟨-, -, hp1, hs1⟩, -⟩ := C06_fill_materials hr1 (movedField 3 ⟨1, 2, -5⟩ ballField) (bisectionFinder 8)
  have hf : Filled a' := C07_filled hr (by intro q _; show Material.Stone ≠ Material.Empty; decide) e
  have hv : ∀ p, InCube 1 p → materialAt a' p = if ballField.value (worldPos ⟨0, 0, 0⟩ 1 p) ≤ 0 then .Stone else .Empty := by
    intro p hp
    have := hm p (by rw [hmax]; exact hp)
    unfold materialAt
    rw [this, hpos, hst]
    simp only [vertexMaterial_le]
    rfl
  refine ⟨a', b', ⟨by norm_num, g0, g1, ballField, _, _, hr, hr1, .bisection 8, similar_movedField (by norm_num) _ _, hsz, ?_, ?_,
    e, e1⟩, hf, ?_, by rw [hs3, hst], by rw [hs1, hst1], by rw [hp1, hpos1]⟩
  · rw [hpos, hpos1]; simp [moved]
  · rw [hst, hst1]; norm_num
  · have hmx : a'.maxCoord = 1 := by rw [← hmax]; exact hh
    have hv' : ∀ x y z, InCube 1 ⟨x, y, z⟩ → materialAt a' ⟨x, y, z⟩ = if x = 0 ∧ y = 0 ∧ z = 0 then .Stone else .Empty := by
      intro x y z h
      rw [hv _ h]
      by_cases hc : x = 0 ∧ y = 0 ∧ z = 0
      · rw [if_pos hc, if_pos (ball_value.2 hc)]
      · rw [if_neg hc, if_neg fun h => hc (ball_value.1 h)]
    refine ⟨by rw [hmx]; decide, ?_⟩
    rw [solidAt_material, solidAt_material, hv' 0 0 0 (by decide)]
    show decide _ ≠ decide (materialAt a' ⟨1, 0, 0⟩ ≠ _)
    rw [hv' 1 0 0 (by decide)]
    simp

/-- A field that is not linear. -/
def squareField : ScalarField ℝ := ⟨fun q => q.x ^ 2, fun _ => ⟨0, 0, 0⟩, fun _ _ => .Stone⟩

theorem interpolationError_nonneg (o : DmcOctree ℝ) (f : ScalarField ℝ) (c : Cube) (u : Vec3 ℝ) : 0 ≤ interpolationError o f c u := by
  unfold interpolationError
  exact div_nonneg (abs_nonneg _) (le_trans zero_le_one (le_max_left _ _))

theorem square_error : 0 < midpointError ⟨2, ⟨0, 0, 0⟩, 1, .leaf ⟨0, ⟨0, 0, 0⟩, 0, ⟨0, 0, 0⟩, none⟩⟩ squareField ((rootCube 2).octant 0) := by
  have hn : ∀ x y z : Fin 3, 0 ≤ if x = 1 ∨ y = 1 ∨ z = 1 then
      interpolationError ⟨2, ⟨0, 0, 0⟩, 1, .leaf ⟨0, ⟨0, 0, 0⟩, 0, ⟨0, 0, 0⟩, none⟩⟩ squareField ((rootCube 2).octant 0)
        ⟨x.val / 2, y.val / 2, z.val / 2⟩ else 0 := by
    intro x y z
    split_ifs
    · exact interpolationError_nonneg _ _ _ _
    · exact le_refl _
  unfold midpointError
  refine lt_of_lt_of_le ?_ (Finset.single_le_sum (fun x _ => Finset.sum_nonneg fun y _ => Finset.sum_nonneg fun z _ => hn x y z)
    (Finset.mem_univ 1))
  refine lt_of_lt_of_le ?_ (Finset.single_le_sum (fun y _ => Finset.sum_nonneg fun z _ => hn 1 y z) (Finset.mem_univ 0))
  refine lt_of_lt_of_le ?_ (Finset.single_le_sum (fun z _ => hn 1 0 z) (Finset.mem_univ 0))
  rw [if_pos (Or.inl rfl)]
  unfold interpolationError
  refine div_pos (abs_pos.2 ?_) (lt_of_lt_of_le zero_lt_one (le_max_left _ _))
  have hc : (rootCube 2).octant 0 = ⟨⟨-2, -2, -2⟩, 1⟩ := by decide
  rw [hc, trilinear_eq]
  simp only [squareField, cellPoint, DmcOctree.localToGlobal]
  norm_num

/-- C77: with the simple splitting policy the tree does depend on the scale: there are a body, an octree and a threshold such
that scaling everything by two (and the threshold by four) gives another tree. -/
theorem C77_simple_policy_gap (env : DmcEnv ℝ R) (seed : Nat) :
    ∃ (f f' : ScalarField ℝ) (o o' : DmcOctree ℝ) (ε : ℝ) (flags : DmcFlags) (q1 q2 : Qef ℝ 4) (o1 o2 : DmcOctree ℝ),
      Similar 2 ⟨0, 0, 0⟩ f f' ∧ o'.level = o.level ∧ o'.globalPos = moved 2 ⟨0, 0, 0⟩ o.globalPos ∧
      o'.globalScale = 2 * o.globalScale ∧ o.build env f Qef.new4 ε flags seed = some (q1, o1) ∧
      o'.build env f' Qef.new4 (2 ^ 2 * ε) flags seed = some (q2, o2) ∧ o1.root ≠ o2.root := by
  have hpos := square_error
  obtain ⟨o, ho⟩ : ∃ o : DmcOctree ℝ, o = ⟨2, ⟨0, 0, 0⟩, 1, .leaf ⟨0, ⟨0, 0, 0⟩, 0, ⟨0, 0, 0⟩, none⟩⟩ := ⟨_, rfl⟩
  obtain ⟨o', ho'⟩ : ∃ o : DmcOctree ℝ, o = ⟨2, ⟨0, 0, 0⟩, 2, .leaf ⟨0, ⟨0, 0, 0⟩, 0, ⟨0, 0, 0⟩, none⟩⟩ := ⟨_, rfl⟩
  rw [← ho] at hpos
  have hl : o.level = 2 := by rw [ho]
  have hl' : o'.level = 2 := by rw [ho']
  have hp : o'.globalPos = moved 2 ⟨0, 0, 0⟩ o.globalPos := by rw [ho, ho']; simp [moved]
  have hsc : o'.globalScale = 2 * o.globalScale := by rw [ho, ho']; norm_num
  have hone : o.globalScale = 1 := by rw [ho]
  have hsim : Similar 2 ⟨0, 0, 0⟩ squareField (movedField 2 ⟨0, 0, 0⟩ squareField) := similar_movedField (by norm_num) _ _
  generalize hε : midpointError o squareField ((rootCube 2).octant 0) = ε at hpos
  have hpt : 0 < (Qef.new4 : Qef ℝ 4).pinvTolerance := by simp only [Qef.new4]; norm_num
  obtain ⟨flags, hfl⟩ : ∃ fl : DmcFlags, fl = ⟨true, false, false⟩ := ⟨_, rfl⟩
  have hsim1 : flags.simpleSplit = true := by rw [hfl]
  have hes : flags.earlyStop = false := by rw [hfl]
  obtain ⟨q1, o1, hb1, -, -, -, -, -, ht1⟩ := C53_dmc_build env o squareField Qef.new4 ε flags seed (by omega) hpt
  obtain ⟨q2, o2, hb2, -, -, -, -, -, ht2⟩ := C53_dmc_build env o' (movedField 2 ⟨0, 0, 0⟩ squareField) Qef.new4 (2 ^ 2 * ε) flags seed
    (by omega) hpt
  refine ⟨squareField, _, o, o', ε, flags, q1, q2, o1, o2, hsim, by omega, hp, hsc, hb1, hb2, ?_⟩
  have hsp := C77_simple_policy two_pos hsim env hp hsc ε flags ((rootCube 2).octant 0)
  rw [hε, hone] at hsp
  have s1 : dmcShouldSplit (dmcArgs env o squareField ε flags) ((rootCube 2).octant 0).lo ((rootCube 2).octant 0).k ≠ true := by
    rw [Ne, hsp.1]; simp
  have s2 : dmcShouldSplit (dmcArgs env o' (movedField 2 ⟨0, 0, 0⟩ squareField) (2 ^ 2 * ε) flags) ((rootCube 2).octant 0).lo
      ((rootCube 2).octant 0).k = true := by
    rw [hsp.2]; norm_num; linarith
  rw [hl] at ht1
  rw [hl'] at ht2
  have hk0 : (rootCube 2).k = 2 := rfl
  have hk1 : ((rootCube 2).octant 0).k = 1 := rfl
  intro heq
  rw [← heq] at ht2
  generalize o1.root = r at ht1 ht2
  cases r with
  | leaf l =>
    obtain ⟨_, ok, _, _, hr⟩ := ht1
    rcases hr with h | ⟨h, _⟩ | ⟨_, h, _⟩ | ⟨h, _⟩
    · omega
    · rw [show (dmcArgs env o squareField ε flags).flags = flags from rfl, hes] at h; cases h
    · exact h (by rw [show (dmcArgs env o squareField ε flags).oct = o from rfl, hl]; rfl)
    · rw [show (dmcArgs env o squareField ε flags).flags = flags from rfl, hsim1] at h; cases h
  | inner d ch =>
    have t1 := ht1.2 0
    have t2 := ht2.2 0
    generalize ch 0 = r at t1 t2
    cases r with
    | leaf l =>
      obtain ⟨_, ok, _, _, hr⟩ := t2
      rcases hr with h | ⟨h, _⟩ | ⟨_, _, h⟩ | ⟨h, _⟩
      · omega
      · rw [show (dmcArgs env o' (movedField 2 ⟨0, 0, 0⟩ squareField) (2 ^ 2 * ε) flags).flags = flags from rfl, hes] at h; cases h
      · rw [s2] at h; cases h
      · rw [show (dmcArgs env o' (movedField 2 ⟨0, 0, 0⟩ squareField) (2 ^ 2 * ε) flags).flags = flags from rfl, hsim1] at h; cases h
    | inner d ch =>
      rcases t1.1.2.2.1 hsim1 with h | h
      · rw [show (dmcArgs env o squareField ε flags).oct = o from rfl, hl] at h; omega
      · exact s1 h

end
end Isomesh
