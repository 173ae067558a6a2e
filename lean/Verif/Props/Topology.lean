import Verif.Spec.Topology
import Verif.Props.UniformDC
import Verif.Props.Filled

/-! C84: which vertices the triangles of a mesh join depends only on the signs of the field at the points of the grid. -/

namespace Isomesh

open Spec

section
variable {K : Type} [Add K] [_root_.Sub K] [Mul K] [Div K] [Zero K] [IntCast K] [LinearOrder K]

/-- What of a record depends only on signs. -/
def edgeShape (e : GridEdge K) : Axis × IVec3 × Bool := (e.axis, e.lesser, e.lesserSolid)

variable {g g' h h' : Grid K} {f f' : ScalarField K} {sv sv' : ZeroFinder K}

theorem half_of_size (hg : g.Reachable) (hg' : g'.Reachable) (hs : g'.size = g.size) : g'.half = g.half := by
  have e1 := hg.wf.half_eq
  have e2 := hg'.wf.half_eq
  rw [hs] at e2
  omega

theorem shape_out (hh : g'.half = g.half) (hs : SameSigns g g' f f') (D : Axis) {p : IVec3}
    (hp : EdgeIn g.half D p) :
    (edgeOutR g' f' sv' D p).map edgeShape = (edgeOutR g f sv D p).map edgeShape := by
  have k : ∀ p, InCube g.half p → (f'.value (g'.spos p) ≤ 0 ↔ f.value (g.spos p) ≤ 0) := fun p hp => hs.2 p hp
  unfold EdgeIn at hp
  have k1 := k p hp.1
  have k2 := k (edgeEnd D p) hp.2
  unfold edgeOutR Crosses
  rw [k1, k2]
  split_ifs with hc
  · rfl
  · simp only [List.map_cons, List.map_nil, edgeShape, sampledRecord, k1]

theorem shape_edges (hg : g.Reachable) (hg' : g'.Reachable) (hs : SameSigns g g' f f') (hf : g.fill f sv = some h)
    (hf' : g'.fill f' sv' = some h') (D : Axis) : (h'.edges D).map edgeShape = (h.edges D).map edgeShape := by
  have hh := half_of_size hg hg' hs.1
  obtain ⟨g1, e1, -, -, -, -, -, -, k1⟩ := fillR_spec hg.wf f sv
  obtain ⟨g2, e2, -, -, -, -, -, -, k2⟩ := fillR_spec hg'.wf f' sv'
  rw [hf] at e1; cases e1
  rw [hf'] at e2; cases e2
  rw [k1 D, k2 D]
  unfold allEdgesR rowYR rowXR rowZR
  have hy : hiY g' D = hiY g D := by cases D <;> simp only [hiY, hh]
  have hx : hiX g' D = hiX g D := by cases D <;> simp only [hiX, hh]
  have hz : hiZ g' D = hiZ g D := by cases D <;> simp only [hiZ, hh]
  rw [hy, hx, hz, hh]
  simp only [List.map_flatMap]
  apply flatMap_agree
  intro y hy
  apply flatMap_agree
  intro x hx
  apply flatMap_agree
  intro z hz
  rw [mem_irange] at hy hx hz
  apply shape_out hh hs
  unfold EdgeIn InCube
  cases D <;> simp only [hiX, hiY, hiZ] at hx hy hz <;> simp only [edgeEnd, shift] <;> omega

theorem shape_list (hg : g.Reachable) (hg' : g'.Reachable) (hs : SameSigns g g' f f') (hf : g.fill f sv = some h)
    (hf' : g'.fill f' sv' = some h') : (edgeList h').map edgeShape = (edgeList h).map edgeShape := by
  unfold edgeList
  simp only [List.map_append, shape_edges hg hg' hs hf hf']

theorem shape_sizes (hg : g.Reachable) (hg' : g'.Reachable) (hs : SameSigns g g' f f') (hf : g.fill f sv = some h)
    (hf' : g'.fill f' sv' = some h') : h.maxCoord = g.maxCoord ∧ h'.maxCoord = g.maxCoord ∧ h'.size = h.size ∧ h'.half = h.half := by
  have hh := half_of_size hg hg' hs.1
  obtain ⟨g1, e1, ⟨a1, b1, -⟩, -⟩ := C73_fill_materials hg f sv
  obtain ⟨g2, e2, ⟨a2, b2, -⟩, -⟩ := C73_fill_materials hg' f' sv'
  rw [hf] at e1; cases e1
  rw [hf'] at e2; cases e2
  exact ⟨b1, b2.trans hh, a2.trans (hs.1.trans a1.symm), b2.trans (hh.trans b1.symm)⟩

theorem shape_solid (hg : g.Reachable) (hg' : g'.Reachable) (hs : SameSigns g g' f f') (hp : ProperField f) (hp' : ProperField f')
    (hf : g.fill f sv = some h) (hf' : g'.fill f' sv' = some h') {p : IVec3} (hin : InCube g.maxCoord p) :
    solidAt h' p = solidAt h p := by
  have hh : g'.maxCoord = g.maxCoord := half_of_size hg hg' hs.1
  obtain ⟨g1, e1, -, k1⟩ := C73_fill_materials hg f sv
  obtain ⟨g2, e2, -, k2⟩ := C73_fill_materials hg' f' sv'
  rw [hf] at e1; cases e1
  rw [hf'] at e2; cases e2
  have hsg := hs.2 p hin
  unfold solidAt
  rw [k1 p hin, k2 p (by rw [hh]; exact hin)]
  simp only [vertexMaterial_le]
  by_cases hv : f.value (samplePos g.globalPos g.step g.maxCoord p) ≤ 0
  · have hv' := hsg.2 hv
    simp [hv, hv', hp _ hv, hp' _ hv']
  · have hv' : ¬ _ := fun x => hv (hsg.1 x)
    simp [hv, hv']

theorem shape_vid (hl : (edgeList h').map edgeShape = (edgeList h).map edgeShape) (P : IVec3) (i : Nat) : vid h' P i = vid h P i := by
  unfold vid edgeIdx
  have key : ∀ l : List (GridEdge K), l.findIdx? (fun e => decide (LEdge.ofGridEdge e = slotEdge P i)) =
      (l.map edgeShape).findIdx? (fun t => decide ((⟨t.1, t.2.1⟩ : LEdge) = slotEdge P i)) := by
    intro l
    rw [List.findIdx?_map]
    rfl
  rw [key, key, hl]

theorem shape_mask (hg : g.Reachable) (hg' : g'.Reachable) (hs : SameSigns g g' f f') (hp : ProperField f) (hp' : ProperField f')
    (hf : g.fill f sv = some h) (hf' : g'.fill f' sv' = some h') {P : IVec3} (hin : CellIn g.maxCoord P) :
    cellMask h' P = cellMask h P := by
  unfold cellMask
  apply Nat.eq_of_testBit_eq
  intro i
  rw [testBit_maskOf, testBit_maskOf]
  by_cases hi : i < 8
  · have hc : shift P (cornerPos i).x (cornerPos i).y (cornerPos i).z ∈ cellVertices P := by
      obtain ⟨x, y, z⟩ := P
      interval_cases i <;> simp [cornerPos, shift, cellVertices]
    rw [shape_solid hg hg' hs hp hp' hf hf' (hin _ hc)]
  · simp [hi]

/-- C84 (marching cubes), in any arithmetic: the index list and the number of vertices depend only on the size of the grid and the
signs of the field at its points, and vertices with the same number lie on the same edge. -/
theorem C84_marching_cubes (hg : g.Reachable) (hg' : g'.Reachable) (hs : SameSigns g g' f f') (hp : ProperField f)
    (hp' : ProperField f') (hf : g.fill f sv = some h) (hf' : g'.fill f' sv' = some h') (nrm nrm' : Vec3 K → Vec3 K)
    {r r' : PlacedMesh K} (hr : marchingCubes nrm h = some r) (hr' : marchingCubes nrm' h' = some r') :
    r'.mesh.indices = r.mesh.indices ∧ r'.mesh.vertices.length = r.mesh.vertices.length ∧
    (edgeList h').map LEdge.ofGridEdge = (edgeList h).map LEdge.ofGridEdge := by
  have hF := C07_filled hg hp hf
  have hF' := C07_filled hg' hp' hf'
  have hl := shape_list hg hg' hs hf hf'
  obtain ⟨m1, m2, hsz, hh⟩ := shape_sizes hg hg' hs hf hf'
  rw [mc_result hF, Option.some.injEq] at hr
  rw [mc_result hF', Option.some.injEq] at hr'
  subst hr hr'
  have hcells : mcCells h' = mcCells h := by
    unfold mcCells
    have hbase : (List.range h'.dataSize).filterMap h'.indexToPoint = (List.range h.dataSize).filterMap h.indexToPoint := by
      unfold Grid.dataSize Grid.indexToPoint
      rw [hsz, hh]
    rw [hbase, m1, m2]
    simp only [shape_vid hl]
  refine ⟨?_, ?_, ?_⟩
  · dsimp only
    rw [hcells]
    congr 1
    apply flatMap_agree
    intro P hP
    have hin := ((mem_mcCells hF).1 hP).1
    unfold cellTriangles
    rw [shape_mask hg hg' hs hp hp' hf hf' (by rw [← m1]; exact hin)]
    simp only [shape_vid hl]
  · have := congrArg List.length hl
    simpa using this
  · have := congrArg (List.map fun t : Axis × IVec3 × Bool => (⟨t.1, t.2.1⟩ : LEdge)) hl
    rw [List.map_map, List.map_map] at this
    exact this

end

section
variable {K : Type} [Add K] [_root_.Sub K] [Mul K] [Div K] [Neg K] [Zero K] [One K] [OfNat K 2] [OfScientific K] [NatCast K] [IntCast K]
  [Fabs K] [Elem K] [LinearOrder K] [RoundedLaws K]
variable {g g' h h' : Grid K} {f f' : ScalarField K} {sv sv' : ZeroFinder K}

/-- C84 (uniform dual contouring), in any arithmetic. -/
theorem C84_dual_contouring (hg : g.Reachable) (hg' : g'.Reachable) (hs : SameSigns g g' f f') (hp : ProperField f)
    (hp' : ProperField f') (hf : g.fill f sv = some h) (hf' : g'.fill f' sv' = some h') {env env' : DcEnv K}
    (hsort : IsSort env.srt) (hsort' : IsSort env'.srt) {solver solver' q q' : Qef K 3}
    (hpinv : 0 < solver.pinvTolerance) (hpinv' : 0 < solver'.pinvTolerance) {r r' : PlacedMesh K}
    (hr : dualContouring env h solver = some (q, r)) (hr' : dualContouring env' h' solver' = some (q', r')) :
    r'.mesh.indices = r.mesh.indices ∧ r'.mesh.vertices.length = r.mesh.vertices.length := by
  have hF := C07_filled hg hp hf
  have hF' := C07_filled hg' hp' hf'
  have hl := shape_list hg hg' hs hf hf'
  obtain ⟨m1, m2, hsz, hh⟩ := shape_sizes hg hg' hs hf hf'
  obtain ⟨cells, hcells⟩ : ∃ cells, CellList h cells := ⟨_, mcCells_cellList hF⟩
  have hcells' : CellList h' cells := by
    refine ⟨hcells.sorted, fun P => (hcells.mem P).trans ?_⟩
    unfold CrossingCell CrossingEdge
    rw [m1, m2]
    refine and_congr_right fun _ => exists_congr fun D => exists_congr fun p => and_congr_left fun _ => and_congr_right fun hin => ?_
    rw [edgeVertices_iff] at hin
    rw [shape_solid hg hg' hs hp hp' hf hf' hin.1, shape_solid hg hg' hs hp hp' hf hf' hin.2]
  obtain ⟨q1, vs, h1, h2, -⟩ := dc_result (env := env) hF hsort hpinv hcells
  obtain ⟨q2, vs', h1', h2', -⟩ := dc_result (env := env') hF' hsort' hpinv' hcells'
  rw [hr] at h1; rw [hr'] at h1'
  cases h1; cases h1'
  refine ⟨?_, h2'.length_eq.symm.trans h2.length_eq⟩
  dsimp only
  congr 1
  have key : ∀ g : Grid K, g.maxCoord = h.maxCoord → (edgeList g).flatMap (edgeQuad g.maxCoord cells) =
      ((edgeList g).map edgeShape).flatMap fun t => edgeQuad h.maxCoord cells
        (⟨t.2.1, ⟨0, 0, 0⟩, 0, t.1, t.2.2, .Empty⟩ : GridEdge K) := by
    intro g hm
    rw [List.flatMap_map, hm]
    rfl
  rw [key h rfl, key h' (m2.trans m1.symm), hl]

end
/-- Ground below a given height. -/
noncomputable def levelField (t k : ℝ) (m : Material) : ScalarField ℝ := ⟨fun q => k * (q.z - t), fun _ => ⟨0, 0, k⟩, fun _ _ => m⟩

/-- Non-vacuity of C84: ground of height 1/2 and of height 1/4 (steeper, of another material) on grids with steps 1 and 2 at different
places have the same signs, both signs occurring. -/
example : ∃ g g' : Grid ℝ, g.Reachable ∧ g'.Reachable ∧ g'.step ≠ g.step ∧ g'.globalPos ≠ g.globalPos ∧
    SameSigns g g' (levelField (1 / 2) 1 .Stone) (levelField (1 / 4) 3 .Soil) ∧
    ProperField (levelField (1 / 2) 1 .Stone) ∧ ProperField (levelField (1 / 4) 3 .Soil) ∧
    (levelField (1 / 2) 1 .Stone).value (samplePos g.globalPos g.step g.maxCoord ⟨0, 0, 0⟩) ≤ 0 ∧
    ¬ (levelField (1 / 2) 1 .Stone).value (samplePos g.globalPos g.step g.maxCoord ⟨0, 0, 1⟩) ≤ 0 := by
  obtain ⟨g, e, h1, h2, h3, h0⟩ : ∃ g, Grid.mk' 4 (⟨0, 0, 0⟩ : Vec3 ℝ) 1 = .ok g ∧ g.globalPos = ⟨0, 0, 0⟩ ∧ g.step = 1 ∧ g.maxCoord = 2 ∧ g.size = 4 :=
    ⟨_, rfl, rfl, rfl, rfl, rfl⟩
  obtain ⟨g', e', h1', h2', h3', h0'⟩ : ∃ g, Grid.mk' 4 (⟨7, 0, 0⟩ : Vec3 ℝ) 2 = .ok g ∧ g.globalPos = ⟨7, 0, 0⟩ ∧ g.step = 2 ∧ g.maxCoord = 2 ∧ g.size = 4 :=
    ⟨_, rfl, rfl, rfl, rfl, rfl⟩
  have hz : ∀ (o : Vec3 ℝ) (st : ℝ) (p : IVec3), -2 ≤ p.z → (samplePos o st 2 p).z = (p.z : ℝ) * st + o.z := by
    intro o st p hp
    have hs : ∀ n, stepped (worldPos o st ⟨-2, -2, -2⟩).z st n = (n : ℝ) * st + (worldPos o st ⟨-2, -2, -2⟩).z := by
      intro n
      induction n with
      | zero => simp [stepped]
      | succ n ih => simp only [stepped, ih]; push_cast; ring
    show stepped _ st _ = _
    rw [hs]
    have : (((p.z + 2).toNat : ℕ) : ℝ) = (p.z : ℝ) + 2 := by
      have : (((p.z + 2).toNat : ℕ) : ℤ) = p.z + 2 := Int.toNat_of_nonneg (by omega)
      exact_mod_cast this
    rw [this]
    simp only [worldPos]
    push_cast
    ring
  have hint : ∀ z : Int, ((z : ℝ) ≤ 0 ↔ z ≤ 0) ∧ (¬ z ≤ 0 → (1 : ℝ) ≤ z) := by
    intro z
    exact ⟨by exact_mod_cast Iff.rfl, fun h => by exact_mod_cast (by omega : 1 ≤ z)⟩
  refine ⟨g, g', .mk e, .mk e', ?_, ?_, ⟨h0'.trans h0.symm, ?_⟩, ?_, ?_, ?_, ?_⟩
  · rw [h2, h2']; norm_num
  · rw [h1, h1']; simp
  · intro p hp
    rw [h3] at hp
    have hpz : -2 ≤ p.z := by unfold InCube at hp; omega
    rw [h1, h2, h3, h1', h2', h3']
    simp only [levelField, hz _ _ p hpz]
    obtain ⟨i1, i2⟩ := hint p.z
    by_cases hc : p.z ≤ 0
    · have := i1.2 hc
      exact ⟨fun _ => by linarith, fun _ => by linarith⟩
    · have := i2 hc
      exact ⟨fun h => by linarith, fun h => by linarith⟩
  · intro q _; simp [levelField]
  · intro q _; simp [levelField]
  · rw [h1, h2, h3]
    simp only [levelField, hz _ _ ⟨0, 0, 0⟩ (by decide)]
    norm_num
  · rw [h1, h2, h3]
    simp only [levelField, hz _ _ ⟨0, 0, 1⟩ (by decide)]
    norm_num

end Isomesh
