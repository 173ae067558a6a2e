import Verif.Props.FlatOct
import Verif.Proofs.PlaneTopo

/-! C71: what simplification does to a flat surface. -/

namespace Isomesh

open Spec Set

section
variable {g g' : Grid ℝ} {f : ScalarField ℝ} {n : Vec3 ℝ} {d nan : ℝ} {steps : Int}

theorem oneMaterial_proper {m : Material} (h : OneMaterial f m) : ProperField f := fun q hq => by rw [h.same q hq]; exact h.solid

theorem materialAt_fill (hg : g.Reachable) {m : Material} (hm : OneMaterial f m) {sv : ZeroFinder ℝ} (h : g.fill f sv = some g') {p : IVec3}
    (hpin : InCube g'.maxCoord p) : materialAt g' p = if f.value (worldPos g.globalPos g.step p) ≤ 0 then m else .Empty := by
  obtain ⟨g'', hfill, ⟨-, hh, -, -⟩, hat⟩ := C06_fill_materials hg f sv
  rw [h] at hfill; cases hfill
  have hmc : g'.maxCoord = g.maxCoord := by unfold Grid.maxCoord; rw [hh]
  rw [hmc] at hpin
  rw [materialAt, hat p hpin, Option.getD_some]
  simp only [vertexMaterial_le]
  by_cases h0 : f.value (worldPos g.globalPos g.step p) ≤ 0
  · rw [if_pos h0, if_pos h0, hm.same _ h0]
  · rw [if_neg h0, if_neg h0]

/-- C71 (topology): every cube of the grid passes the topology test, if the solid is a half-space of one material. -/
theorem C71_topology (hg : g.Reachable) (hf : PlaneField f n d) {m : Material} (hm : OneMaterial f m) {sv : ZeroFinder ℝ}
    (h : g.fill f sv = some g') {lo : IVec3} {k : Nat} (hin : CubeIn g'.maxCoord ⟨lo, k + 1⟩) :
    TopoSafe (fun p => materialAt g' (halfPoint ⟨lo, k + 1⟩ p)) := by
  refine affine_topo (φ := fun p => f.value (worldPos g.globalPos g.step (halfPoint ⟨lo, k + 1⟩ p)))
    (A := f.value (worldPos g.globalPos g.step lo)) (B := n.x * (g.step * 2 ^ k)) (C := n.y * (g.step * 2 ^ k)) (D := n.z * (g.step * 2 ^ k))
    ⟨?_⟩ hm.solid ?_
  · intro p
    rw [hf.value, hf.value]
    simp only [worldPos, halfPoint, Nat.add_sub_cancel]
    push_cast
    ring
  · intro p hp
    refine materialAt_fill hg hm h (hin _ ?_)
    have hx := hp .X
    have hy := hp .Y
    have hz := hp .Z
    simp only [IVec3.get] at hx hy hz
    have e : (2 : Int) ^ (k + 1) = 2 * 2 ^ k := by rw [pow_succ]; ring
    have h0 : (0 : Int) ≤ 2 ^ k := by positivity
    simp only [Cube.Closed, Cube.side, halfPoint, Nat.add_sub_cancel, e]
    generalize (2 : Int) ^ k = u at *
    refine ⟨?_, ?_, ?_⟩
    · rcases hx with hx | hx | hx <;> rw [hx] <;> omega
    · rcases hy with hx | hx | hx <;> rw [hx] <;> omega
    · rcases hz with hx | hx | hx <;> rw [hx] <;> omega

/-- C71 (fit): the error of every joint system is zero. -/
theorem C71_fit (hg : g.Reachable) (hstep : 0 < g.step) (hf : PlaneField f n d) (hp : ProperField f)
    (h : g.fill f (regulaFalsiFinder nan steps) = some g') {env : DcEnv ℝ} (hn : GoodDirection env n) {epsilon : ℝ} {simplify : Bool}
    {k depth : Nat} {lo : IVec3} (hin : CubeIn g'.maxCoord ⟨lo, k + 1⟩) (hk : k + 1 ≤ 9) {l : Fin 8 → DcLeaf ℝ}
    (hl : ∀ i, ∃ q q', dcBuildNode env g' epsilon simplify k (depth + 1) (octCorner lo (2 ^ k) i) q = some (q', .leaf (l i)))
    {options : Qef ℝ 3} {x : VecN ℝ 3} {err : ℝ} (hfit : Fit env g' options ⟨lo, k + 1⟩ l x err) : err = 0 := by
  have hF := C07_filled hg hp h
  obtain ⟨s, hs, hs'⟩ := hn.exact
  have hw := planeRow_flat (g := g') hn hf hs hs'
  obtain ⟨q1, q2, hr, hsol, hev⟩ := hfit
  have hleaf : ∀ i, LeafOK g' ⟨octCorner lo (2 ^ k) i, k⟩ (l i) ∧ FlatLeaf env g' n d s (⟨octCorner lo (2 ^ k) i, k⟩, l i) := by
    intro i
    obtain ⟨q, q', hi⟩ := hl i
    refine ⟨(dcBuildNode_ok hF _ _ _ _ _ _ (cubeIn_octant hin i) hi).1, ?_⟩
    refine flat_node hg hstep hf hp h hn hs hs' _ _ _ _ _ _ (cubeIn_octant hin i) (Or.inr (by omega)) hi _ ?_
    simp [locate, Oct.leaves]
  have hB2 : 8 * (12 * 8 ^ k) < 2 ^ 32 := by
    have : 8 ^ k ≤ 8 ^ 8 := Nat.pow_le_pow_right (by norm_num) (by omega)
    omega
  rw [← octantStates_eq fun i => (hleaf i).1] at hr
  have hfq := flat_merge hn.tiny_pos hw (l := l) (lo := lo.toReal.toVecN) (hi := (upperCorner lo (k + 1)).toReal.toVecN) (by
    intro i hi
    obtain ⟨D, e1, e2, -⟩ := (hleaf i).2 hi
    exact ⟨D, e1, e2.mono (fun j => (octant_box lo k i j).1) (fun j => (octant_box lo k i j).2) (le_refl _)⟩) hB2 hr
  dsimp only at hsol
  rw [← (upper_eq lo (k + 1)).1, ← (upper_eq lo (k + 1)).2] at hsol
  have := (flatQ_solve hn.tiny_pos hw hfq hsol).2.2.1
  rw [hev] at this
  exact Option.some.inj this

theorem plane_collapses (hg : g.Reachable) (hstep : 0 < g.step) (hf : PlaneField f n d) {m : Material} (hm : OneMaterial f m)
    (h : g.fill f (regulaFalsiFinder nan steps) = some g') {env : DcEnv ℝ} (hn : GoodDirection env n) {epsilon : ℝ} (he : 0 ≤ epsilon) :
    ∀ (k depth : Nat) (lo : IVec3) (q q' : Qef ℝ 3) (t : DcNode ℝ), CubeIn g'.maxCoord ⟨lo, k⟩ → k ≤ 9 →
    dcBuildNode env g' epsilon true k depth lo q = some (q', t) → ∃ l, t = .leaf l := by
  have hp := oneMaterial_proper hm
  have hF := C07_filled hg hp h
  intro k
  induction k with
  | zero =>
    intro depth lo q q' t hin _ hb
    rw [dcBuildNode] at hb
    obtain ⟨corners, es, q1, ms, -, -, -, -, -, -, -, -, -, -, -, h10⟩ := dcBuildLeaf_eq (env := env) hF (cubeIn_cell hin) depth q
    rw [h10] at hb
    split at hb
    · simp only [Option.bind_eq_bind, Option.bind_eq_some_iff] at hb
      obtain ⟨qv, hv, qs, hqs, hb⟩ := hb
      cases hb
      exact ⟨_, rfl⟩
    · cases hb; exact ⟨_, rfl⟩
  | succ k ih =>
    intro depth lo q q' t hin hk hb
    obtain ⟨ch, hch, hcase⟩ := C24_collapse hF hin hb
    rcases hcase with ⟨l, -, -, corners, rfl, -⟩ | ⟨l, x, err, -, -, -, -, -, -, corners, normal, s, rfl, -⟩ | ⟨-, ⟨i, d', c, hi⟩ | ⟨-, hs | ht | ⟨l, x, err, hl, hfit, hlt⟩⟩⟩
    · exact ⟨_, rfl⟩
    · exact ⟨_, rfl⟩
    · obtain ⟨qi, qi', -, hbi⟩ := hch i
      obtain ⟨l, hl⟩ := ih _ _ _ _ _ (cubeIn_octant hin i) (by omega) hbi
      rw [hl] at hi; cases hi
    · cases hs
    · exact absurd (C71_topology hg hf hm h hin) ht
    · have := C71_fit hg hstep hf hp h hn hin hk (l := l) (fun i => by
        obtain ⟨qi, qi', -, hbi⟩ := hch i
        rw [hl i] at hbi
        exact ⟨qi, qi', hbi⟩) hfit
      rw [this] at hlt
      exact absurd hlt (not_lt.2 he)

/-- C71: over a half-space of one material, simplification with any error bound that is not negative always merges the whole tree into one
leaf, and the mesh has no triangles at all: a flat surface disappears. -/
theorem C71_plane_vanishes (hg : g.Reachable) (hstep : 0 < g.step) (hf : PlaneField f n d) {m : Material} (hm : OneMaterial f m)
    (h : g.fill f (regulaFalsiFinder nan steps) = some g') {env : DcEnv ℝ} (hn : GoodDirection env n) {o o' o'' : DcOctree ℝ} {solver q' : Qef ℝ 3}
    {epsilon : ℝ} (he : 0 ≤ epsilon) (hlev : o.level ≤ 9) (hin : CubeIn g'.maxCoord (rootCube o.level))
    (hb : o.build env g' solver epsilon true = some (q', o')) {r : PlacedMesh ℝ} (hc : o'.contour = some (r, o'')) :
    leafCubes o'.root (rootCube o.level) = [rootCube o.level] ∧ r.mesh.indices = [] ∧ r.mesh.vertices.length ≤ 1 := by
  have hroot : ∃ l, o'.root = .leaf l := by
    have hin' := hin
    rw [← rootCube_eq] at hin'
    unfold DcOctree.build at hb
    split at hb
    · cases hb
    rename_i q root hn'
    cases hb
    exact plane_collapses hg hstep hf hm h hn (div_nonneg he (mul_self_nonneg _)) _ _ _ _ _ _ hin' hlev hn'
  obtain ⟨l, hl⟩ := hroot
  refine ⟨by rw [hl]; simp [leafCubes, locate, Oct.leaves], ?_⟩
  unfold DcOctree.contour at hc
  rw [hl] at hc
  simp only [dcMakeVertices] at hc
  split at hc
  · simp only [Option.bind_eq_bind, Option.bind_some] at hc
    obtain ⟨mesh, hmesh, hc⟩ := Option.bind_eq_some_iff.1 hc
    cases hc
    rw [Trav.cellProc] at hmesh
    cases hmesh
    simp [Mesh.new]
  · split at hc
    · cases hc
    · split at hc
      · cases hc
      · rename_i mesh v hadd
        simp only [Option.bind_eq_bind, Option.bind_some] at hc
        obtain ⟨mesh', hmesh, hc⟩ := Option.bind_eq_some_iff.1 hc
        cases hc
        rw [Trav.cellProc] at hmesh
        cases hmesh
        unfold Mesh.addVertex at hadd
        split at hadd
        · cases hadd; simp [Mesh.new]
        · cases hadd

end

end Isomesh
