import Verif.Spec.Terrain
import Verif.Props.Heightmap
import Verif.Props.Completeness
import Verif.Props.AccuracyOct

/-! C94: meshes of terrains. -/

namespace Isomesh
open Spec

variable {hm : Heightmap} {H : ℝ → ℝ → ℝ}

/-- C94 (every heightmap is a terrain): every heightmap with a sound image describes exactly one terrain; one without image describes a horizontal plane.
Its slopes are at most the steps between neighbouring pixels per pixel size. -/
theorem C94_terrain (hm : Heightmap) (hs : ∀ m, hm.data = some m → m.Sound) : ∃! H, IsTerrain hm H := by
  have hex : ∀ x z, ∃ s, hm.Surface x z s := by
    intro x z
    rcases h : hm.data with _ | m
    · exact ⟨_, C47_unloaded hm (by simp [Heightmap.isDataLoaded, h]) x z⟩
    · exact (C46_in_bounds h (hs m h) x z).exists
  choose H hH using hex
  refine ⟨H, fun x y z => hH x z y, fun H' h' => ?_⟩
  funext x z
  have h1 := h' x 0 z
  rw [hH x z 0, Option.some.injEq] at h1
  linarith

theorem C94_slope {m : HmImage} (hd : hm.data = some m) (hs : m.Sound) {L M : ℝ} (hL : 0 ≤ L) (hM : 0 ≤ M)
    (hx : m.StepX hm.heightRange L) (hz : m.StepZ hm.heightRange M) (hH : IsTerrain hm H) :
    SlopeAtMost H (L / |hm.pixelSize|) (M / |hm.pixelSize|) := fun x z x' z' =>
  C65_lipschitz hd hs hL hM hx hz (fun y => hH x y z) (fun y => hH x' y z')

theorem terrain_value (hH : IsTerrain hm H) (p : Vec3 ℝ) : hm.field.value p = p.y - H p.x p.z := by
  unfold Heightmap.field
  dsimp only
  rw [hH]
  rfl

theorem terrain_proper (hm : Heightmap) : ProperField hm.field := by
  intro q _
  simp [Heightmap.field]

theorem terrain_continuous (hH : IsTerrain hm H) {A B : ℝ} (hl : SlopeAtMost H A B) : AxisContinuous hm.field := by
  intro D p
  cases D
  · have : (fun c => hm.field.value (p.set .X c)) = fun c => p.y - H c p.z := by
      funext c; rw [terrain_value hH]; rfl
    rw [this]
    refine continuous_const.sub ?_
    refine (LipschitzWith.of_dist_le_mul (K := A.toNNReal) fun a b => ?_).continuous
    have := hl a p.z b p.z
    rw [sub_self, abs_zero, mul_zero, add_zero] at this
    rw [Real.dist_eq, Real.dist_eq]
    refine this.trans (mul_le_mul_of_nonneg_right (Real.le_coe_toNNReal A) (abs_nonneg _))
  · have : (fun c => hm.field.value (p.set .Y c)) = fun c => c - H p.x p.z := by
      funext c; rw [terrain_value hH]; rfl
    rw [this]
    exact continuous_id.sub continuous_const
  · have : (fun c => hm.field.value (p.set .Z c)) = fun c => p.y - H p.x c := by
      funext c; rw [terrain_value hH]; rfl
    rw [this]
    refine continuous_const.sub ?_
    refine (LipschitzWith.of_dist_le_mul (K := B.toNNReal) fun a b => ?_).continuous
    have := hl p.x a p.x b
    rw [sub_self, abs_zero, mul_zero, zero_add] at this
    rw [Real.dist_eq, Real.dist_eq]
    refine this.trans (mul_le_mul_of_nonneg_right (Real.le_coe_toNNReal B) (abs_nonneg _))

/-- C94 (ground and air): after `fill` the grid points at or below the terrain are solid, those above are empty. -/
theorem C94_solid (hH : IsTerrain hm H) {g g' : Grid ℝ} (hg : g.Reachable) {sv : ZeroFinder ℝ} (h : g.fill hm.field sv = some g') {p : IVec3}
    (hp : InCube g.maxCoord p) :
    g'.at p = some (if (p.y : ℝ) * g.step + g.globalPos.y ≤ H (lineX g p.x) (lineZ g p.z) then Material.Solid else Material.Empty) := by
  obtain ⟨g'', hfill, -, hmat⟩ := C06_fill_materials hg hm.field sv
  rw [h] at hfill; cases hfill
  rw [hmat p hp]
  congr 1
  unfold vertexMaterial
  rw [terrain_value hH]
  have e : hm.field.material (worldPos g.globalPos g.step p) ((worldPos g.globalPos g.step p).y - H (worldPos g.globalPos g.step p).x (worldPos g.globalPos g.step p).z) = .Solid := rfl
  simp only [terrain_value hH, e]
  by_cases hc : (p.y : ℝ) * g.step + g.globalPos.y ≤ H (lineX g p.x) (lineZ g p.z)
  · rw [if_pos hc]
    first
      | rw [if_pos (show (worldPos g.globalPos g.step p).y - H (worldPos g.globalPos g.step p).x (worldPos g.globalPos g.step p).z ≤ 0 from sub_nonpos.2 hc)]
      | rw [if_neg (not_lt.2 (show (worldPos g.globalPos g.step p).y - H (worldPos g.globalPos g.step p).x (worldPos g.globalPos g.step p).z ≤ 0 from sub_nonpos.2 hc))]
  · rw [if_neg hc]
    have hc' := sub_pos.2 (not_le.1 hc)
    first
      | rw [if_neg (not_le.2 (show 0 < (worldPos g.globalPos g.step p).y - H (worldPos g.globalPos g.step p).x (worldPos g.globalPos g.step p).z from hc'))]
      | rw [if_pos (show 0 < (worldPos g.globalPos g.step p).y - H (worldPos g.globalPos g.step p).x (worldPos g.globalPos g.step p).z from hc')]

theorem terrain_crosses (hH : IsTerrain hm H) {g : Grid ℝ} (hstep : 0 < g.step) (x y z : Int) :
    Crosses hm.field (worldPos g.globalPos g.step) .Y ⟨x, y, z⟩ ↔
      (y : ℝ) * g.step + g.globalPos.y ≤ H (lineX g x) (lineZ g z) ∧ H (lineX g x) (lineZ g z) < ((y : ℝ) + 1) * g.step + g.globalPos.y := by
  unfold Crosses
  rw [terrain_value hH, terrain_value hH]
  have e1 : (worldPos g.globalPos g.step ⟨x, y, z⟩).y - H (worldPos g.globalPos g.step ⟨x, y, z⟩).x (worldPos g.globalPos g.step ⟨x, y, z⟩).z =
      (y : ℝ) * g.step + g.globalPos.y - H (lineX g x) (lineZ g z) := rfl
  have e2 : (worldPos g.globalPos g.step (edgeEnd .Y ⟨x, y, z⟩)).y -
      H (worldPos g.globalPos g.step (edgeEnd .Y ⟨x, y, z⟩)).x (worldPos g.globalPos g.step (edgeEnd .Y ⟨x, y, z⟩)).z =
      ((y : ℝ) + 1) * g.step + g.globalPos.y - H (lineX g x) (lineZ g z) := by
    simp only [worldPos, edgeEnd, shift, lineX, lineZ, add_zero]
    push_cast
    rfl
  rw [e1, e2]
  constructor
  · intro hc
    constructor
    · by_contra h1
      apply hc
      constructor <;> intro h2 <;> nlinarith
    · by_contra h1
      apply hc
      constructor <;> intro h2 <;> nlinarith
  · rintro ⟨h1, h2⟩ hc
    have := hc.1 (by linarith)
    linarith

/-- C94 (columns): each vertical line of the grid carries at most one crossing, and it carries one exactly if the terrain crosses the line inside the
grid; the solid end is the lower one. -/
theorem C94_columns (hH : IsTerrain hm H) {g g' : Grid ℝ} (hg : g.Reachable) (hstep : 0 < g.step) {sv : ZeroFinder ℝ}
    (h : g.fill hm.field sv = some g') {x z : Int} (hx : -g.maxCoord ≤ x ∧ x ≤ g.maxCoord) (hz : -g.maxCoord ≤ z ∧ z ≤ g.maxCoord) :
    (∀ e ∈ g'.edges .Y, ∀ e' ∈ g'.edges .Y, e.lesser.x = e'.lesser.x → e.lesser.z = e'.lesser.z → e = e') ∧
    (∀ e ∈ g'.edges .Y, e.lesserSolid = true) ∧
    ((∃ e ∈ g'.edges .Y, e.lesser.x = x ∧ e.lesser.z = z) ↔ LineCrossed g H x z) := by
  have hE := (C07_fill_edges hg h .Y).1
  refine ⟨?_, ?_, ?_⟩
  · intro e he e' he' h1 h2
    obtain ⟨⟨px, py, pz⟩, -, hc, rfl⟩ := (hE e).1 he
    obtain ⟨⟨qx, qy, qz⟩, -, hc', rfl⟩ := (hE e').1 he'
    rw [terrain_crosses hH hstep] at hc hc'
    simp only [edgeRecord_lesser] at h1 h2
    subst h1 h2
    have a1 : (py : ℝ) < qy + 1 := by nlinarith
    have a2 : (qy : ℝ) < py + 1 := by nlinarith
    have a1' : py < qy + 1 := by exact_mod_cast a1
    have a2' : qy < py + 1 := by exact_mod_cast a2
    obtain rfl : py = qy := by omega
    rfl
  · intro e he
    obtain ⟨⟨px, py, pz⟩, -, hc, rfl⟩ := (hE e).1 he
    rw [terrain_crosses hH hstep] at hc
    show decide (hm.field.value _ ≤ 0) = true
    rw [decide_eq_true_eq, terrain_value hH]
    exact sub_nonpos.2 hc.1
  · constructor
    · rintro ⟨e, he, rfl, rfl⟩
      obtain ⟨⟨px, py, pz⟩, hin, hc, rfl⟩ := (hE e).1 he
      rw [terrain_crosses hH hstep] at hc
      obtain ⟨h0, h1⟩ := edgeVertices_iff.1 hin
      unfold InCube edgeEnd shift at *
      dsimp only at h0 h1
      simp only [edgeRecord_lesser]
      have b1 : (-g.maxCoord : ℝ) ≤ py := by exact_mod_cast h0.2.1.1
      have b2 : (py : ℝ) + 1 ≤ g.maxCoord := by exact_mod_cast h1.2.1.2
      constructor <;> nlinarith
    · rintro ⟨h1, h2⟩
      let y : Int := ⌊(H (lineX g x) (lineZ g z) - g.globalPos.y) / g.step⌋
      have f1 := Int.floor_le ((H (lineX g x) (lineZ g z) - g.globalPos.y) / g.step)
      have f2 := Int.lt_floor_add_one ((H (lineX g x) (lineZ g z) - g.globalPos.y) / g.step)
      rw [le_div_iff₀ hstep] at f1
      rw [div_lt_iff₀ hstep] at f2
      have hc : Crosses hm.field (worldPos g.globalPos g.step) .Y ⟨x, y, z⟩ := (terrain_crosses hH hstep x y z).2 ⟨by linarith, by linarith⟩
      have b1 : (-g.maxCoord : ℝ) < (y : ℝ) + 1 := by nlinarith
      have b2 : (y : ℝ) < g.maxCoord := by nlinarith
      have b1' : -g.maxCoord < y + 1 := by exact_mod_cast b1
      have b2' : y < g.maxCoord := by exact_mod_cast b2
      refine ⟨_, (hE _).2 ⟨⟨x, y, z⟩, edgeVertices_iff.2 ⟨?_, ?_⟩, hc, rfl⟩, rfl, rfl⟩
      · unfold InCube
        dsimp only
        omega
      · unfold InCube edgeEnd shift
        dsimp only
        omega

/-- The vertex that marching cubes creates for a crossed vertical edge. -/
theorem terrain_edge_vertex {g g' : Grid ℝ} (hg : g.Reachable) (hstep : 0 < g.step) {f : ScalarField ℝ} (hp : ProperField f) {sv : ZeroFinder ℝ}
    (h : g.fill f sv = some g') (nrm : Vec3 ℝ → Vec3 ℝ) {r : PlacedMesh ℝ} (hr : marchingCubes nrm g' = some r) {D : Axis} {e : GridEdge ℝ}
    (he : e ∈ g'.edges D) : ∃ i v, UsedVertex r i ∧ r.mesh.vertices[i]? = some v ∧ meshToWorld r v.position =
      (worldPos g.globalPos g.step e.lesser).set D (crossingCoord f sv (worldPos g.globalPos g.step) D e.lesser) ∧
      v.normal = nrm e.gradient ∧ v.material = e.material := by
  have hF := C07_filled hg hp h
  obtain ⟨r', hr', r1, r2, hlen, hv, -, -⟩ := C15_valid hF nrm
  rw [hr] at hr'; cases hr'
  have hax := hF.edge_axis D e he
  have hel : e ∈ edgeList g' := (mem_edgeList hF).2 (by rw [hax]; exact he)
  obtain ⟨k, hk, hke⟩ := List.getElem_of_mem hel
  have hke' : (edgeList g')[k]? = some e := by rw [List.getElem?_eq_getElem hk, hke]
  refine ⟨k, _, mc_used hF nrm hr hk, hv k e hke', ?_, rfl, rfl⟩
  rw [← C15_vertex_position hg h hstep.ne' he]
  unfold meshToWorld Grid.localToGlobal
  rw [r1, r2]

/-- C94 (exact heights): with the regula falsi finder, whatever its number of steps, the marching cubes mesh has a vertex in a triangle exactly at the
height of the terrain on each vertical line crossed inside the grid; with the bisection finder the error of this height is at most the grid step divided by
two to the number of steps. -/
theorem C94_vertices (hH : IsTerrain hm H) {g g' : Grid ℝ} (hg : g.Reachable) (hstep : 0 < g.step) (nrm : Vec3 ℝ → Vec3 ℝ) (nan : ℝ) (steps : Int)
    {r : PlacedMesh ℝ} {x z : Int} (hx : -g.maxCoord ≤ x ∧ x ≤ g.maxCoord) (hz : -g.maxCoord ≤ z ∧ z ≤ g.maxCoord) (hc : LineCrossed g H x z) :
    (g.fill hm.field (regulaFalsiFinder nan steps) = some g' → marchingCubes nrm g' = some r →
      ∃ i v, UsedVertex r i ∧ r.mesh.vertices[i]? = some v ∧
        meshToWorld r v.position = ⟨lineX g x, H (lineX g x) (lineZ g z), lineZ g z⟩) ∧
    (g.fill hm.field (bisectionFinder steps) = some g' → marchingCubes nrm g' = some r →
      ∃ i v y, UsedVertex r i ∧ r.mesh.vertices[i]? = some v ∧
        meshToWorld r v.position = ⟨lineX g x, y, lineZ g z⟩ ∧ |y - H (lineX g x) (lineZ g z)| ≤ g.step / 2 ^ stepCount steps) := by
  have hset : ∀ (y : Int) (c : ℝ), (worldPos g.globalPos g.step ⟨x, y, z⟩).set .Y c = ⟨lineX g x, c, lineZ g z⟩ := fun _ _ => rfl
  have hval : ∀ (y : Int) (c : ℝ), hm.field.value ((worldPos g.globalPos g.step ⟨x, y, z⟩).set .Y c) = c - H (lineX g x) (lineZ g z) := by
    intro y c
    rw [terrain_value hH]
    rfl
  have hrec : ∀ {sv : ZeroFinder ℝ}, g.fill hm.field sv = some g' → marchingCubes nrm g' = some r → ∃ y,
      Crosses hm.field (worldPos g.globalPos g.step) .Y ⟨x, y, z⟩ ∧ ∃ i v, UsedVertex r i ∧ r.mesh.vertices[i]? = some v ∧
        meshToWorld r v.position = ⟨lineX g x, crossingCoord hm.field sv (worldPos g.globalPos g.step) .Y ⟨x, y, z⟩, lineZ g z⟩ := by
    intro sv h hr
    obtain ⟨e, he, hex, hez⟩ := ((C94_columns hH hg hstep h hx hz).2.2).2 hc
    obtain ⟨i, v, hu, hv, hpos, -⟩ := terrain_edge_vertex hg hstep (terrain_proper hm) h nrm hr he
    obtain ⟨⟨px, py, pz⟩, -, hcr, hrec⟩ := ((C07_fill_edges hg h .Y).1 e).1 he
    have hl : e.lesser = ⟨px, py, pz⟩ := by rw [hrec, edgeRecord_lesser]
    rw [hl] at hex hez hpos
    dsimp only at hex hez
    subst hex hez
    exact ⟨py, hcr, i, v, hu, hv, hpos⟩
  have hb : ∀ y : Int, worldPos g.globalPos g.step (edgeEnd .Y ⟨x, y, z⟩) =
      (worldPos g.globalPos g.step ⟨x, y, z⟩).set .Y ((worldPos g.globalPos g.step ⟨x, y, z⟩).y + g.step) := fun y => edgeEnd_world _ _ .Y _
  constructor
  · intro h hr
    obtain ⟨y, hcr, i, v, hu, hv, hpos⟩ := hrec h hr
    refine ⟨i, v, hu, hv, hpos.trans ?_⟩
    congr 1
    unfold crossingCoord
    dsimp only
    rw [hb]
    have key := C12_affine_exact steps .Y (worldPos g.globalPos g.step ⟨x, y, z⟩).x (worldPos g.globalPos g.step ⟨x, y, z⟩).y
      (worldPos g.globalPos g.step ⟨x, y, z⟩).z ((worldPos g.globalPos g.step ⟨x, y, z⟩).y + g.step) hm.field
      (-H (lineX g x) (lineZ g z)) 1 one_ne_zero (by show (worldPos g.globalPos g.step ⟨x, y, z⟩).y ≠ _; linarith)
      (fun c => by rw [show (⟨(worldPos g.globalPos g.step ⟨x, y, z⟩).x, (worldPos g.globalPos g.step ⟨x, y, z⟩).y,
        (worldPos g.globalPos g.step ⟨x, y, z⟩).z⟩ : Vec3 ℝ) = worldPos g.globalPos g.step ⟨x, y, z⟩ from rfl, hval]; ring)
    have key' := congrArg (fun o => o.getD nan) key
    refine Eq.trans ?_ (key'.trans (by simp))
    rfl
  · intro h hr
    obtain ⟨y, hcr, i, v, hu, hv, hpos⟩ := hrec h hr
    refine ⟨i, v, _, hu, hv, hpos, ?_⟩
    unfold crossingCoord
    dsimp only
    rw [hb]
    obtain ⟨s1, -⟩ := C07_solver_precondition hcr
    rw [hb] at s1
    obtain ⟨w, -, hw0, hw⟩ := C11_bisection steps .Y (worldPos g.globalPos g.step ⟨x, y, z⟩).x (worldPos g.globalPos g.step ⟨x, y, z⟩).y
      (worldPos g.globalPos g.step ⟨x, y, z⟩).z ((worldPos g.globalPos g.step ⟨x, y, z⟩).y + g.step) hm.field
      (by
        have : (fun c => hm.field.value ((⟨(worldPos g.globalPos g.step ⟨x, y, z⟩).x, (worldPos g.globalPos g.step ⟨x, y, z⟩).y,
          (worldPos g.globalPos g.step ⟨x, y, z⟩).z⟩ : Vec3 ℝ).set .Y c)) = fun c => c - H (lineX g x) (lineZ g z) := funext (hval y)
        rw [this]
        exact (continuous_id.sub continuous_const).continuousOn) s1
    have e := hval y w
    rw [show (⟨(worldPos g.globalPos g.step ⟨x, y, z⟩).x, (worldPos g.globalPos g.step ⟨x, y, z⟩).y,
        (worldPos g.globalPos g.step ⟨x, y, z⟩).z⟩ : Vec3 ℝ) = worldPos g.globalPos g.step ⟨x, y, z⟩ from rfl, e] at hw0
    have hwe : w = H (lineX g x) (lineZ g z) := by linarith
    rw [hwe] at hw
    refine hw.trans (le_of_eq ?_)
    have : |(worldPos g.globalPos g.step ⟨x, y, z⟩).y + g.step - (worldPos g.globalPos g.step ⟨x, y, z⟩).y| = g.step := by
      rw [add_sub_cancel_left, abs_of_pos hstep]
    exact congrArg (· / _) this

theorem terrain_near (hH : IsTerrain hm H) {A B : ℝ} (hA : 0 ≤ A) (hB : 0 ≤ B) (hl : SlopeAtMost H A B) {s : ℝ} (hs : 0 < s) {q w : Vec3 ℝ}
    (hw : hm.field.value w = 0) (hd : dist2 q w ≤ 3 * s ^ 2) : |q.y - H q.x q.z| ≤ Real.sqrt 3 * (1 + A + B) * s := by
  rw [terrain_value hH] at hw
  have hsq : (Real.sqrt 3 * s) ^ 2 = 3 * s ^ 2 := by rw [mul_pow, Real.sq_sqrt (by norm_num)]
  have h0 : 0 ≤ Real.sqrt 3 * s := mul_nonneg (Real.sqrt_nonneg _) hs.le
  unfold dist2 at hd
  have hx : |q.x - w.x| ≤ Real.sqrt 3 * s := abs_le_of_sq_le_sq (by rw [hsq]; nlinarith [sq_nonneg (q.y - w.y), sq_nonneg (q.z - w.z)]) h0
  have hy : |q.y - w.y| ≤ Real.sqrt 3 * s := abs_le_of_sq_le_sq (by rw [hsq]; nlinarith [sq_nonneg (q.x - w.x), sq_nonneg (q.z - w.z)]) h0
  have hz : |q.z - w.z| ≤ Real.sqrt 3 * s := abs_le_of_sq_le_sq (by rw [hsq]; nlinarith [sq_nonneg (q.y - w.y), sq_nonneg (q.x - w.x)]) h0
  have l := hl w.x w.z q.x q.z
  rw [abs_sub_comm w.x, abs_sub_comm w.z] at l
  have e : q.y - H q.x q.z = (q.y - w.y) + (H w.x w.z - H q.x q.z) := by linarith
  rw [e]
  refine (abs_add_le _ _).trans ?_
  have := mul_le_mul_of_nonneg_left hx hA
  have := mul_le_mul_of_nonneg_left hz hB
  nlinarith

/-- C94 (accuracy of terrain meshes): every point of every triangle of the meshes of a terrain is within `√3·(1 + A + B)` grid steps above or below the
terrain, where `A` and `B` bound its slopes: for marching cubes with any finder that stays on the edges, uniform dual contouring, the dual contouring octree
without simplification and the manifold dual contouring octree with a negative bound. -/
theorem C94_accuracy (hH : IsTerrain hm H) {A B : ℝ} (hA : 0 ≤ A) (hB : 0 ≤ B) (hl : SlopeAtMost H A B) {g g' : Grid ℝ} (hg : g.Reachable)
    (hstep : 0 < g.step) {sv : ZeroFinder ℝ} (h : g.fill hm.field sv = some g') :
    (StaysOnEdges hm.field sv g.globalPos g.step → ∀ {nrm : Vec3 ℝ → Vec3 ℝ} {r : PlacedMesh ℝ}, marchingCubes nrm g' = some r →
      WithinHeight r H (Real.sqrt 3 * (1 + A + B) * g.step)) ∧
    (∀ {env : DcEnv ℝ}, IsSort env.srt → ∀ {solver q : Qef ℝ 3}, 0 < solver.pinvTolerance → ∀ {r : PlacedMesh ℝ},
      dualContouring env g' solver = some (q, r) → WithinHeight r H (Real.sqrt 3 * (1 + A + B) * g.step)) ∧
    (∀ {env : DcEnv ℝ} {o o' o'' : DcOctree ℝ} {solver q : Qef ℝ 3} {ε : ℝ}, o.globalPos = g.globalPos → o.globalScale = g.step →
      CubeIn g'.maxCoord (rootCube o.level) → o.build env g' solver ε false = some (q, o') → ∀ {r : PlacedMesh ℝ}, o'.contour = some (r, o'') →
      WithinHeight r H (Real.sqrt 3 * (1 + A + B) * g.step)) ∧
    (∀ {env : DcEnv ℝ} {o o' o1 o2 : MdcOctree ℝ} {solver q : Qef ℝ 3}, o.globalPos = g.globalPos → o.globalScale = g.step →
      CubeIn g'.maxCoord (rootCube o.level) → 4 * crossingCells g' (rootCube o.level) + 3 < 2 ^ 32 → o.build env g' solver = some (q, o') →
      ∀ {bounds : List ℝ}, contourAll o' bounds = some o1 → ∀ {ε : ℝ}, ε < 0 → ∀ {r : PlacedMesh ℝ}, o1.contour ε = some (r, o2) →
      WithinHeight r H (Real.sqrt 3 * (1 + A + B) * g.step)) := by
  have hc := terrain_continuous hH hl
  have hp := terrain_proper hm
  refine ⟨?_, ?_, ?_, ?_⟩
  · intro hsv nrm r hr t ht q hq
    obtain ⟨w, hw, hd⟩ := C69_marching_cubes hg hstep hc hp hsv h nrm hr t ht
    exact terrain_near hH hA hB hl hstep hw (hd q hq)
  · intro env hsort solver q hpi r hr t ht x hx
    obtain ⟨w, hw, hd⟩ := C69_dual_contouring hg hstep hc hp h hsort hpi hr t ht
    exact terrain_near hH hA hB hl hstep hw (hd x hx)
  · intro env o o' o'' solver q ε h1 h2 h3 h4 r hr t ht x hx
    obtain ⟨w, hw, hd⟩ := C69_dc_octree_unsimplified hg hstep hc hp h h1 h2 h3 h4 hr t ht
    exact terrain_near hH hA hB hl hstep hw (hd x hx)
  · intro env o o' o1 o2 solver q h1 h2 h3 h4 h5 bounds h6 ε h7 r hr t ht x hx
    obtain ⟨w, hw, hd⟩ := C69_mdc_octree hg hstep hc hp h h1 h2 h3 h4 h5 h6 h7 hr t ht
    exact terrain_near hH hA hB hl hstep hw (hd x hx)

/-- C94 (normals): every vertex of a marching cubes terrain mesh carries the (normalized) gradient of the heightmap, which always points upwards and whose
horizontal parts never exceed the slopes of the image. -/
theorem C94_normals {m : HmImage} (hd : hm.data = some m) (hs : m.Sound) (hps : hm.pixelSize ≠ 0) {L M : ℝ} (hL : 0 ≤ L) (hM : 0 ≤ M)
    (hx : m.StepX hm.heightRange L) (hz : m.StepZ hm.heightRange M) {g g' : Grid ℝ} (hg : g.Reachable) {sv : ZeroFinder ℝ}
    (h : g.fill hm.field sv = some g') (nrm : Vec3 ℝ → Vec3 ℝ) {r : PlacedMesh ℝ} (hr : marchingCubes nrm g' = some r) :
    ∀ v ∈ r.mesh.vertices, v.material = .Solid ∧
      ∃ gx gz, v.normal = nrm ⟨gx, 1, gz⟩ ∧ |gx| ≤ L / |hm.pixelSize| ∧ |gz| ≤ M / |hm.pixelSize| := by
  have hF := C07_filled hg (terrain_proper hm) h
  obtain ⟨r', hr', r1, r2, hlen, hv, -, -⟩ := C15_valid hF nrm
  rw [hr] at hr'; cases hr'
  intro v hvm
  obtain ⟨k, hk, rfl⟩ := List.getElem_of_mem hvm
  have hk' : k < (edgeList g').length := by
    unfold edgeList
    rw [List.length_append, List.length_append, ← hlen]
    exact hk
  have hv' := hv k _ (List.getElem?_eq_getElem hk')
  rw [List.getElem?_eq_getElem hk, Option.some.injEq] at hv'
  have hm' := (mem_edgeList hF).1 (List.getElem_mem hk')
  rw [hv']
  clear hv' hv
  generalize (edgeList g')[k] = e at *
  generalize e.axis = D at hm'
  obtain ⟨p, hpin, hcr, rfl⟩ := ((C07_fill_edges hg h _).1 _).1 hm'
  constructor
  · show (if hm.field.value _ ≤ 0 then vertexMaterial _ _ else vertexMaterial _ _) = _
    have e : ∀ q, hm.field.value q ≤ 0 → vertexMaterial hm.field q = .Solid := by
      intro q hq
      unfold vertexMaterial
      rw [if_neg (not_lt.2 hq)]
      rfl
    split_ifs with hc
    · exact e _ hc
    · refine e _ ?_
      by_contra hn
      exact hcr ⟨fun h => absurd h hc, fun h => absurd h hn⟩
  · obtain ⟨gr, e1, e2, e3, e4⟩ := C65_grad_bounded hd hs hps hL hM hx hz
      ((worldPos g.globalPos g.step p).set D (crossingCoord hm.field sv (worldPos g.globalPos g.step) D p)).x
      ((worldPos g.globalPos g.step p).set D (crossingCoord hm.field sv (worldPos g.globalPos g.step) D p)).y
      ((worldPos g.globalPos g.step p).set D (crossingCoord hm.field sv (worldPos g.globalPos g.step) D p)).z
    refine ⟨gr.x, gr.z, ?_, e3, e4⟩
    show nrm (hm.field.grad ((worldPos g.globalPos g.step p).set D (crossingCoord hm.field sv (worldPos g.globalPos g.step) D p))) = _
    have : hm.field.grad ((worldPos g.globalPos g.step p).set D (crossingCoord hm.field sv (worldPos g.globalPos g.step) D p)) = gr := by
      show (hm.grad _ _ _).getD _ = _
      rw [e1]
      rfl
    rw [this, ← e2]

/-- Non-vacuity: the demo heightmap describes a terrain with bounded slopes. -/
example : ∃ H, IsTerrain demoHm H ∧ SlopeAtMost H 2 2 := by
  obtain ⟨H, hH, -⟩ := C94_terrain demoHm (fun m h => by cases h; exact demoImage_sound)
  have key : ∀ c c' : Nat, c ∈ demoImage.data → c' ∈ demoImage.data → |colorHeight (0, 4) c' - colorHeight (0, 4) c| ≤ 4 := by
    intro c c' h h'
    have a : (c : ℝ) < 65536 := by exact_mod_cast demoImage_sound.bits c h
    have b : (c' : ℝ) < 65536 := by exact_mod_cast demoImage_sound.bits c' h'
    have a0 : (0 : ℝ) ≤ c := by positivity
    have b0 : (0 : ℝ) ≤ c' := by positivity
    unfold colorHeight
    rw [abs_le]
    constructor <;> norm_num <;> linarith
  refine ⟨H, hH, ?_⟩
  have := C94_slope (hm := demoHm) (m := demoImage) rfl demoImage_sound (L := 4) (M := 4) (by norm_num) (by norm_num)
    (fun r k c c' h h' => key c c' (List.mem_of_getElem? h.2.2.2.2) (List.mem_of_getElem? h'.2.2.2.2))
    (fun r k c c' h h' => key c c' (List.mem_of_getElem? h.2.2.2.2) (List.mem_of_getElem? h'.2.2.2.2)) hH
  norm_num [demoHm, Heightmap.new] at this
  exact this

/-- Non-vacuity: an unloaded heightmap is the plane through its centre; every vertical line of a grid about the centre is crossed. -/
example (c : Vec3 ℝ) : IsTerrain (Heightmap.new (0, 4) c 2) (fun _ _ => c.y) ∧
    ∃ g : Grid ℝ, g.Reachable ∧ g.step = 1 ∧ ∀ x z, LineCrossed g (fun _ _ => c.y) x z := by
  refine ⟨fun x y z => C47_unloaded _ rfl x z y, ?_⟩
  refine ⟨{ size := 2, half := 1, mat := List.replicate 27 none, edgeX := [], edgeY := [], edgeZ := [], globalPos := c, step := 1 },
    .mk (size := 2) (pos := c) (step := 1) rfl, rfl, ?_⟩
  intro x z
  unfold LineCrossed
  have : (({ size := 2, half := 1, mat := List.replicate 27 none, edgeX := [], edgeY := [], edgeZ := [], globalPos := c, step := 1 } : Grid ℝ)).maxCoord = 1 := rfl
  rw [this]
  dsimp only
  norm_num

end Isomesh
