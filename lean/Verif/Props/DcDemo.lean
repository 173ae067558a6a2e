import Verif.Props.DcUniform
import Verif.Props.UniformDC

/-! Concrete cases for the theorems about `DC_Octree` (C22 - C24, C26): an octree of side 2 over a grid of size 2. -/

namespace Isomesh
open Spec

/-- A grid of size 2 filled with one material. -/
theorem stone_grid (field : ScalarField ℝ) (hm : ∀ p v, field.material p v = .Stone) :
    ∃ g : Grid ℝ, Filled g ∧ g.maxCoord = 1 ∧ ∀ p, InCube 1 p →
      materialAt g p = if field.value (worldPos ⟨0, 0, 0⟩ 1 p) ≤ 0 then .Stone else .Empty := by
  obtain ⟨g0, h0⟩ : ∃ g0, Grid.mk' 2 (⟨0, 0, 0⟩ : Vec3 ℝ) 1 = .ok g0 := ⟨_, rfl⟩
  have hr : g0.Reachable := .mk h0
  have hmax : g0.maxCoord = 1 := by cases h0; rfl
  have hpos : g0.globalPos = ⟨0, 0, 0⟩ := by cases h0; rfl
  have hst : g0.step = 1 := by cases h0; rfl
  obtain ⟨g, e, ⟨hs, hh, -, -⟩, hmm⟩ := C06_fill_materials hr field midSolver
  have hf : Filled g := C07_filled hr (by intro q _; rw [hm]; decide) e
  refine ⟨g, hf, by rw [← hmax]; exact hh, ?_⟩
  intro p hp
  have := hmm p (by rw [hmax]; exact hp)
  rw [materialAt, this, hpos, hst]
  simp only [vertexMaterial_le]
  split
  · rw [hm]; rfl
  · rfl

theorem solidAt_material (g : Grid ℝ) (p : IVec3) : solidAt g p = decide (materialAt g p ≠ .Empty) := by
  unfold solidAt materialAt
  cases g.at p with
  | none => simp
  | some m => cases m <;> simp

theorem cubeIn_demo {g : Grid ℝ} (h : g.maxCoord = 1) : CubeIn g.maxCoord (rootCube 1) := by
  rintro ⟨x, y, z⟩ hp
  rw [h]
  simp only [rootCube, Cube.Closed, Cube.side] at hp
  norm_num at hp
  simp only [InCube]
  omega

theorem half_demo (x y z : Int) : halfPoint ⟨rootCorner 1, 0 + 1⟩ ⟨x, y, z⟩ = ⟨x - 1, y - 1, z - 1⟩ := by
  have : rootCorner 1 = ⟨-1, -1, -1⟩ := by decide
  simp only [halfPoint, this]
  norm_num
  omega

/-- The octree over the ball grid: hypotheses of C22 - C24 and C26 are met with simplification on; the single solid
vertex in the middle is not topologically safe, so the tree is kept as eight leaves, and the mesh has a vertex for each.
The surface does not reach the boundary of the cube (C58). -/
theorem ball_octree (env : DcEnv ℝ) : ∃ (g : Grid ℝ) (o : DcOctree ℝ) (q' : Qef ℝ 3) (o' : DcOctree ℝ), Filled g ∧ o.level = 1 ∧
    CubeIn g.maxCoord (rootCube o.level) ∧ o.build env g Qef.new3 1 true = some (q', o') ∧
    (∃ d ch, o'.root = .inner d ch) ∧ CrossingEdge g .X ⟨0, 0, 0⟩ ∧
    ∀ D p, CrossingEdge g D p → ¬ OnBorder (rootCube o.level) D p := by
  obtain ⟨g, hf, hm, hv⟩ := stone_grid ballField (fun _ _ => rfl)
  have hin := cubeIn_demo hm
  let o : DcOctree ℝ := ⟨1, ⟨0, 0, 0⟩, 1, .leaf ⟨0, fun _ => .Empty, none, none⟩⟩
  have hp : 0 < (Qef.new3 : Qef ℝ 3).pinvTolerance := by simp only [Qef.new3]; norm_num
  obtain ⟨q', o', r, o'', hb, -, -⟩ := C22_completes (env := env) hf o 1 (simplify := true) hin hp (Or.inr (by decide))
  have hv' : ∀ x y z, InCube 1 ⟨x, y, z⟩ → materialAt g ⟨x, y, z⟩ = if x = 0 ∧ y = 0 ∧ z = 0 then .Stone else .Empty := by
    intro x y z h
    rw [hv _ h]
    by_cases hc : x = 0 ∧ y = 0 ∧ z = 0
    · rw [if_pos hc, if_pos (ball_value.2 hc)]
    · rw [if_neg hc, if_neg fun h => hc (ball_value.1 h)]
  have hx : CrossingEdge g .X ⟨0, 0, 0⟩ := by
    refine ⟨by rw [hm]; decide, ?_⟩
    rw [solidAt_material, solidAt_material, hv' 0 0 0 (by decide)]
    show decide _ ≠ decide (materialAt g ⟨1, 0, 0⟩ ≠ _)
    rw [hv' 1 0 0 (by decide)]
    simp
  have hbord : ∀ D p, CrossingEdge g D p → ¬ OnBorder (rootCube 1) D p := by
    rintro D ⟨x, y, z⟩ ⟨h1, h2⟩ ⟨R, hR, hRn⟩
    rw [hm] at h1
    have i1 := h1 ⟨x, y, z⟩ (by cases D <;> simp [edgeVertices])
    have i2 := h1 (edgeEnd D ⟨x, y, z⟩) (by cases D <;> simp [edgeVertices, edgeEnd])
    rw [solidAt_material, solidAt_material, hv' _ _ _ i1] at h2
    have hor : (x = 0 ∧ y = 0 ∧ z = 0) ∨ ((edgeEnd D ⟨x, y, z⟩).x = 0 ∧ (edgeEnd D ⟨x, y, z⟩).y = 0 ∧ (edgeEnd D ⟨x, y, z⟩).z = 0) := by
      by_contra hcon
      rw [not_or] at hcon
      apply h2
      have e2 : materialAt g (edgeEnd D ⟨x, y, z⟩) = .Empty := (hv' _ _ _ i2).trans (if_neg hcon.2)
      rw [if_neg hcon.1, e2]
    apply hRn
    have e : rootCube 1 = ⟨⟨-1, -1, -1⟩, 1⟩ := by decide
    rw [e]
    simp only [Cube.Has, Cube.side, pow_one]
    cases D <;> simp only [cellsAroundEdge, shift, List.mem_cons, List.not_mem_nil, or_false] at hR <;>
      simp only [edgeEnd, shift] at hor <;> rcases hR with rfl | rfl | rfl | rfl <;> simp only <;> omega
  refine ⟨g, o, q', o', hf, rfl, hin, hb, ?_, hx, hbord⟩
  have hhet : Hetero g (Cube.octant ⟨rootCorner 1, 1⟩ 7) := by
    refine ⟨0, 7, ?_⟩
    rw [solidAt_material, solidAt_material]
    show decide (materialAt g ⟨0, 0, 0⟩ ≠ _) ≠ decide (materialAt g ⟨1, 1, 1⟩ ≠ _)
    rw [hv' 0 0 0 (by decide), hv' 1 1 1 (by decide)]
    simp
  unfold DcOctree.build at hb
  split at hb
  · cases hb
  rename_i q root hn
  cases hb
  rw [← rootCube_eq] at hin
  obtain ⟨ch, -, h | h | h⟩ := C24_collapse hf hin hn
  · obtain ⟨l, -, h, -⟩ := h
    exact absurd hhet (h 7)
  · obtain ⟨l, x, err, -, -, -, ht, -⟩ := h
    exfalso
    obtain ⟨⟨x, y, z⟩, hp, hp1, he⟩ := ht.centre
    rw [half_demo, half_demo] at he
    have ex := hp .X; have ey := hp .Y; have ez := hp .Z
    have nx := hp1 .X; have ny := hp1 .Y; have nz := hp1 .Z
    simp only [IVec3.get] at ex ey ez nx ny nz
    rw [hv' _ _ _ (by decide), hv' _ _ _ (by simp only [InCube]; omega)] at he
    rw [if_pos (by decide), if_neg (by omega)] at he
    simp at he
  · obtain ⟨h, -⟩ := h
    exact ⟨_, _, h⟩

/-- The half-space `z ≤ 1/2`. -/
noncomputable def halfField : ScalarField ℝ :=
  { value := fun p => p.z - 1 / 2, grad := fun _ => ⟨0, 0, 1⟩, material := fun _ _ => .Stone }

/-- A flat surface through an octree of side 2 is safe, so with a large enough bound the tree collapses to one leaf with a
vertex, and with a negative bound it does not: both branches of C24 occur. -/
theorem half_octree (env : DcEnv ℝ) : ∃ (g : Grid ℝ) (o : DcOctree ℝ), Filled g ∧ o.level = 1 ∧
    CubeIn g.maxCoord (rootCube o.level) ∧
    (∃ (e : ℝ) (q' : Qef ℝ 3) (o' : DcOctree ℝ) (l : DcLeaf ℝ) (d : DcDual ℝ), o.build env g Qef.new3 e true = some (q', o') ∧
      o'.root = .leaf l ∧ l.dual = some d) ∧
    (∃ (e : ℝ) (q' : Qef ℝ 3) (o' : DcOctree ℝ), o.build env g Qef.new3 e true = some (q', o') ∧ ∃ d ch, o'.root = .inner d ch) := by
  obtain ⟨g, hf, hm, hv⟩ := stone_grid halfField (fun _ _ => rfl)
  have hin := cubeIn_demo hm
  let o : DcOctree ℝ := ⟨1, ⟨0, 0, 0⟩, 1, .leaf ⟨0, fun _ => .Empty, none, none⟩⟩
  have hp : 0 < (Qef.new3 : Qef ℝ 3).pinvTolerance := by simp only [Qef.new3]; norm_num
  have hv' : ∀ x y z, InCube 1 ⟨x, y, z⟩ → materialAt g ⟨x, y, z⟩ = if z ≤ 0 then .Stone else .Empty := by
    intro x y z h
    rw [hv _ h]
    simp only [halfField, worldPos, mul_one, add_zero]
    have : ((z : ℝ) - 1 / 2 ≤ 0) ↔ z ≤ 0 := by
      constructor
      · intro h
        have : (z : ℝ) < 1 := by linarith
        have : z < 1 := by exact_mod_cast this
        omega
      · intro h
        have : (z : ℝ) ≤ 0 := by exact_mod_cast h
        linarith
    by_cases hz : z ≤ 0
    · rw [if_pos hz, if_pos (this.2 hz)]
    · rw [if_neg hz, if_neg (fun h => hz (this.1 h))]
  have hhet : Hetero g (Cube.octant ⟨rootCorner 1, 0 + 1⟩ 7) := by
    refine ⟨0, 7, ?_⟩
    rw [solidAt_material, solidAt_material]
    show decide (materialAt g ⟨0, 0, 0⟩ ≠ _) ≠ decide (materialAt g ⟨1, 1, 1⟩ ≠ _)
    rw [hv' 0 0 0 (by decide), hv' 1 1 1 (by decide)]
    simp
  have hin' := hin
  rw [← rootCube_eq] at hin'
  have hsafe : TopoSafe (fun p => materialAt g (halfPoint ⟨rootCorner 1, 0 + 1⟩ p)) := by
    have hM : ∀ p, HalfGrid p → (if p.z ≤ 1 then Material.Stone else .Empty) = materialAt g (halfPoint ⟨rootCorner 1, 0 + 1⟩ p) := by
      rintro ⟨x, y, z⟩ hp
      have ex := hp .X; have ey := hp .Y; have ez := hp .Z
      simp only [IVec3.get] at ex ey ez
      rw [half_demo, hv' _ _ _ (by simp only [InCube]; omega)]
      by_cases hz : z ≤ 1
      · rw [if_pos hz, if_pos (by omega)]
      · rw [if_neg hz, if_neg (by omega)]
    apply topoSafe_congr hM
    rw [← topoSafety_iff]
    decide +kernel
  -- the children do not depend on the bound
  have key : ∃ (q1 : Qef ℝ 3) (l : Fin 8 → DcLeaf ℝ), (∀ i, LeafOK g ⟨octCorner (rootCorner 1) (2 ^ 0) i, 0⟩ (l i)) ∧
      ∀ e, dcBuildNode env g e true 1 0 (rootCorner 1) Qef.new3 =
        dcTryCollapse env e true 0 (rootCorner 1) 1 (fun i => .leaf (l i)) q1 := by
    obtain ⟨q', n, h1, -⟩ := dcBuildNode_total (env := env) hf (epsilon := 0) (simplify := true) 1 0 (rootCorner 1) Qef.new3 hin' hp
      (Or.inr (by decide))
    rw [dcBuildNode] at h1
    split at h1
    · cases h1
    rename_i q1 ch hch
    obtain ⟨-, hsp⟩ := threadM_spec (fun _ => True) 8 _ (fun i s s' a _ _ => trivial) trivial hch
    have hleaf : ∀ i, ∃ l, ch i = .leaf l ∧ LeafOK g ⟨octCorner (rootCorner 1) (2 ^ 0) i, 0⟩ l := by
      intro i
      obtain ⟨t, t', -, hi⟩ := hsp i
      rw [childCorner_eq] at hi
      have hok := dcBuildNode_ok hf _ _ _ _ _ _ (cubeIn_octant hin' i) hi
      cases hc : ch i with
      | leaf l => rw [hc] at hok; exact ⟨l, rfl, hok.1⟩
      | inner d c => rw [hc] at hok; exact absurd hok (by simp [TreeOK])
    choose l hl hok using hleaf
    refine ⟨q1, l, hok, fun e => ?_⟩
    rw [dcBuildNode]
    have : ∀ e, threadM 8 (fun i q => dcBuildNode env g e true 0 (0 + 1) (childCorner (rootCorner 1) 0 i) q) Qef.new3 = some (q1, ch) := by
      intro e; rw [← hch]; rfl
    rw [this e, ← show ch = fun i => .leaf (l i) from funext hl]
  obtain ⟨q1, l, hok, key⟩ := key
  have hl : dcLeafChildren (fun i => (.leaf (l i) : DcNode ℝ)) = some l := dcLeafChildren_of fun _ => rfl
  have hnh : ¬ ∀ i, (l i).homogeneous = true := fun h => (homogeneous_iff (hok 7).corners).1 (h 7) hhet
  have hfit : ∀ e, dcBuildNode env g e true 1 0 (rootCorner 1) Qef.new3 =
      dcFit env e 0 (rootCorner 1) 1 (fun i => .leaf (l i)) l q1 := by
    intro e
    rw [key e, dcTryCollapse, hl]
    simp only
    rw [if_neg hnh, if_pos trivial, if_pos ((topo_of_leaves hok).2 hsafe)]
  have htot : ∀ e, ∃ q' n, dcBuildNode env g e true 1 0 (rootCorner 1) Qef.new3 = some (q', n) := by
    intro e
    obtain ⟨q', n, h1, -⟩ := dcBuildNode_total (env := env) hf (epsilon := e) (simplify := true) 1 0 (rootCorner 1) Qef.new3 hin' hp
      (Or.inr (by decide))
    exact ⟨q', n, h1⟩
  obtain ⟨err, herr⟩ : ∃ err : ℝ, ∀ e q' n, dcFit env e 0 (rootCorner 1) 1 (fun i => .leaf (l i)) l q1 = some (q', n) →
      (err ≤ e → ∃ l' d, n = .leaf l' ∧ l'.dual = some d) ∧ (e < err → ∃ d ch, n = .inner d ch) := by
    obtain ⟨q', n, h1⟩ := htot 0
    rw [hfit, dcFit] at h1
    simp only [Option.bind_eq_bind, Option.bind_eq_some_iff] at h1
    obtain ⟨qa, e1, qv, e2, err, e3, -⟩ := h1
    refine ⟨err, fun e q' n h => ?_⟩
    rw [dcFit] at h
    simp only [Option.bind_eq_bind] at h
    rw [e1] at h
    simp only [Option.bind_some] at h
    rw [e2] at h
    simp only [Option.bind_some] at h
    rw [e3] at h
    simp only [Option.bind_some] at h
    constructor
    · intro he
      rw [if_neg (not_lt.2 he)] at h
      simp only [Option.bind_eq_some_iff] at h
      obtain ⟨qs, -, h⟩ := h
      cases h
      exact ⟨_, _, rfl, rfl⟩
    · intro he
      rw [if_pos he] at h
      cases h
      exact ⟨_, _, rfl⟩
  have hbuild : ∀ e, ∃ q' n, o.build env g Qef.new3 e true = some (q', { o with root := n }) ∧
      dcFit env e 0 (rootCorner 1) 1 (fun i => .leaf (l i)) l q1 = some (q', n) := by
    intro e
    obtain ⟨q', n, h1⟩ := htot e
    refine ⟨q', n, ?_, by rw [← hfit]; exact h1⟩
    unfold DcOctree.build
    have : e / (o.globalScale * o.globalScale) = e := by show e / (1 * 1) = e; norm_num
    rw [this, h1]
  refine ⟨g, o, hf, rfl, hin, ?_, ?_⟩
  · obtain ⟨q', n, h1, h2⟩ := hbuild err
    obtain ⟨l', d, h3, h4⟩ := (herr _ _ _ h2).1 le_rfl
    exact ⟨err, q', _, l', d, h1, h3, h4⟩
  · obtain ⟨q', n, h1, h2⟩ := hbuild (err - 1)
    obtain ⟨d, ch, h3⟩ := (herr _ _ _ h2).2 (by linarith)
    exact ⟨err - 1, q', _, h1, d, ch, h3⟩

end Isomesh
