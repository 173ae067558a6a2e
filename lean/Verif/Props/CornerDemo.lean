import Verif.Props.Corner
import Verif.Props.Box

/-! C97 on concrete cases. -/

namespace Isomesh
open Spec

/-- The record of the edge of the cube example from the lattice point (1, 1, 1). -/
noncomputable def cornerRecord (D : Axis) : GridEdge ℝ :=
  edgeRecord cubeField (regulaFalsiFinder 0 8) (worldPos ⟨0, 0, 0⟩ 1) 1 D ⟨1, 1, 1⟩

theorem corner_crosses (D : Axis) : Crosses cubeField (worldPos ⟨0, 0, 0⟩ 1) D ⟨1, 1, 1⟩ := by
  rw [crosses_box cube_box]
  refine ⟨fun a _ => ?_, ?_⟩
  · rw [cube_meets]; cases a <;> simp [IVec3.get]
  · rw [cube_meets, cube_meets]; cases D <;> simp [IVec3.get]

/-- C97 on a concrete case: the cell at the corner of the cube of side 3.  It has three stored edges, whose planes determine the corner of the
cube; the vertex of the uniform dual contouring mesh in this cell is close to it. -/
theorem cube_corner {srt : List (DcEntry ℝ) → List (DcEntry ℝ)} (hs : IsSort srt) :
    ∃ (g g' : Grid ℝ) (q' : Qef ℝ 3) (r : PlacedMesh ℝ) (es : List (GridEdge ℝ)) (cells : List IVec3) (k : Nat) (v : MeshVertex ℝ), g.Reachable ∧
    g.fill cubeField (regulaFalsiFinder 0 8) = some g' ∧ dualContouring (exactEnv srt) g' Qef.new3 = some (q', r) ∧
    StoredEdges g' ⟨1, 1, 1⟩ es ∧ es.length = 3 ∧ SharpOptions (exactEnv srt) Qef.new3 1 ∧
    CornerAt (exactEnv srt).eps ⟨1, 1, 1⟩ 1 es ![3 / 2, 3 / 2, 3 / 2] ∧
    CellList g' cells ∧ cells[k]? = some ⟨1, 1, 1⟩ ∧ r.mesh.vertices[k]? = some v ∧
    CloseTo Qef.new3 1 (exactEnv srt).eps es v.position.toVecN ![3 / 2, 3 / 2, 3 / 2] := by
  obtain ⟨g, e, hgp⟩ : ∃ g, Grid.mk' 4 (⟨0, 0, 0⟩ : Vec3 ℝ) 1 = .ok g ∧ g.globalPos = ⟨0, 0, 0⟩ ∧ g.step = 1 ∧ g.maxCoord = 2 := ⟨_, rfl, rfl, rfl, rfl⟩
  have hre : g.Reachable := .mk e
  have hstep : 0 < g.step := by rw [hgp.2.1]; norm_num
  have hprop : ProperField cubeField := by intro q _; simp [cubeField]
  obtain ⟨g', hfill, ⟨-, hhalf, -⟩, -⟩ := C06_fill_materials hre cubeField (regulaFalsiFinder 0 8)
  have hm : g'.maxCoord = 2 := by rw [← hgp.2.2]; exact hhalf
  have hF := C07_filled hre hprop hfill
  obtain ⟨⟨cells, hcells⟩, q', r, hr, -⟩ := C18_vertices (env := exactEnv srt) hF hs (exact_options srt).pinv_pos
  have hedges := fun D => (C07_fill_edges hre hfill D).1
  rw [hgp.1, hgp.2.1] at hedges
  have hrec : ∀ D, cornerRecord D ∈ g'.edges D := by
    intro D
    refine (hedges D _).2 ⟨⟨1, 1, 1⟩, ?_, corner_crosses D, rfl⟩
    intro v hv
    rw [hgp.2.2]
    cases D <;> simp [edgeVertices] at hv <;> rcases hv with rfl | rfl <;> (unfold InCube; decide)
  have hax : ∀ D, (cornerRecord D).axis = D := fun D => hF.edge_axis _ _ (hrec D)
  have hle : ∀ D, (cornerRecord D).lesser = ⟨1, 1, 1⟩ := fun D => rfl
  have hcell : ∀ D, EdgeOfCell ⟨1, 1, 1⟩ D ⟨1, 1, 1⟩ := by
    intro D v hv
    cases D <;> simp [edgeVertices] at hv <;> rcases hv with rfl | rfl <;> simp [cellVertices]
  have hes : StoredEdges g' ⟨1, 1, 1⟩ [cornerRecord .X, cornerRecord .Y, cornerRecord .Z] := by
    refine ⟨?_, fun e => ?_⟩
    · have hne : ∀ D D', D ≠ D' → cornerRecord D ≠ cornerRecord D' := by
        intro D D' h h'
        exact h (by rw [← hax D, h', hax])
      simp [hne]
    · have hmem : e ∈ [cornerRecord .X, cornerRecord .Y, cornerRecord .Z] ↔ ∃ D, e = cornerRecord D := by
        simp only [List.mem_cons, List.not_mem_nil, or_false]
        constructor
        · rintro (h | h | h) <;> exact ⟨_, h⟩
        · rintro ⟨D, h⟩; cases D <;> simp [h]
      rw [hmem]
      constructor
      · rintro ⟨D, rfl⟩
        rw [mem_edgeList hF, hax, hle]
        exact ⟨hrec D, hcell D⟩
      · rintro ⟨h1, h2⟩
        obtain ⟨p, -, hcr, hep⟩ := (hedges _ _).1 ((mem_edgeList hF).1 h1)
        have hpl : e.lesser = p := by rw [hep]; rfl
        rw [hpl] at h2
        obtain ⟨c1, c2⟩ := (crosses_box cube_box _ _).1 hcr
        have hv0 := fun A => cellVertices_get (h2 p (by cases e.axis <;> simp [edgeVertices])) A
        have hv1 := cellVertices_get (h2 (edgeEnd e.axis p) (by cases e.axis <;> simp [edgeVertices, edgeEnd])) e.axis
        rw [edgeEnd_get, if_pos rfl] at hv1
        have hone : ∀ A, p.get A = 1 := by
          intro A
          have hA : (⟨1, 1, 1⟩ : IVec3).get A = 1 := by cases A <;> rfl
          have h0 := hv0 A
          rw [hA] at h0
          by_cases hAe : A = e.axis
          · subst hAe
            rw [hA] at hv1
            omega
          · have := (cube_meets _ _).1 (c1 A hAe)
            omega
        have hp1 : p = ⟨1, 1, 1⟩ := by
          obtain ⟨x, y, z⟩ := p
          have hx := hone .X; have hy := hone .Y; have hz := hone .Z
          simp only [IVec3.get] at hx hy hz
          rw [hx, hy, hz]
        refine ⟨e.axis, ?_⟩
        rw [hep, hp1]
        rfl
  have hbox : ∀ D, (∃ s : ℝ, (s = 1 ∨ s = -1) ∧ edgeNormal 0 (cornerRecord D).gradient = (⟨0, 0, 0⟩ : Vec3 ℝ).set D s) ∧
      (cornerRecord D).surfacePoint.get D = 3 / 2 := by
    intro D
    have hk := box_edge hre hstep cube_box hprop hfill (by rw [hgp.1, hgp.2.1]; exact cube_offLattice)
      (by rw [hgp.1, hgp.2.1]; exact C96_finder cube_box one_pos cube_linear 0 8) (e := cornerRecord D)
      ((mem_edgeList hF).2 (by rw [hax]; exact hrec D))
    rw [hax, hle, hgp.1, hgp.2.1] at hk
    refine ⟨hk.2.1, ?_⟩
    have h4 := hk.2.2.2
    rw [if_pos (by rw [cube_meets]; cases D <;> simp [IVec3.get])] at h4
    cases D <;> simpa [Vec3.get] using h4
  have ho : SharpOptions (exactEnv srt) Qef.new3 1 := by
    refine ⟨?_, ?_, ?_, ?_⟩ <;> norm_num [exactEnv, Qef.new3]
  have heps : (exactEnv srt).eps = 0 := rfl
  obtain ⟨⟨sx, hsx, nx⟩, px⟩ := hbox .X
  obtain ⟨⟨sy, hsy, ny⟩, py⟩ := hbox .Y
  obtain ⟨⟨sz, hsz, nz⟩, pz⟩ := hbox .Z
  have sq : ∀ s : ℝ, (s = 1 ∨ s = -1) → s ^ 2 = 1 := by rintro s (rfl | rfl) <;> norm_num
  have hc : CornerAt (exactEnv srt).eps ⟨1, 1, 1⟩ 1 [cornerRecord .X, cornerRecord .Y, cornerRecord .Z] ![3 / 2, 3 / 2, 3 / 2] := by
    rw [heps]
    refine ⟨by simp, ?_, ?_, ?_⟩
    · intro u
      simp only [edgePlanes, List.map_cons, List.map_nil, List.sum_cons, List.sum_nil, nx, ny, nz, Fin.sum_univ_three]
      simp only [Vec3.toVecN, Vec3.set]
      simp [mul_pow, sq _ hsx, sq _ hsy, sq _ hsz]
      linarith
    · apply C97_common
      intro pn hpn
      simp only [edgePlanes, List.map_cons, List.map_nil, List.mem_cons, List.not_mem_nil, or_false] at hpn
      simp only [Vec3.get] at px py pz
      rcases hpn with rfl | rfl | rfl <;> rw [Fin.sum_univ_three]
      · rw [nx]; simp [Vec3.toVecN, Vec3.set, px]
      · rw [ny]; simp [Vec3.toVecN, Vec3.set, py]
      · rw [nz]; simp [Vec3.toVecN, Vec3.set, pz]
    · intro i
      fin_cases i <;> norm_num [cellLo, cellHi]
  have hPc : CrossingCell g' ⟨1, 1, 1⟩ := by
    refine ⟨?_, .X, ⟨1, 1, 1⟩, (hF.edge_iff _ _).1 ⟨_, hrec .X, rfl⟩, hcell .X⟩
    intro v hv
    rw [hm]
    simp [cellVertices] at hv
    rcases hv with rfl | rfl | rfl | rfl | rfl | rfl | rfl | rfl <;> (unfold InCube; decide)
  obtain ⟨k, hk, hkP⟩ := List.getElem_of_mem ((hcells.mem _).2 hPc)
  have hkP' : cells[k]? = some ⟨1, 1, 1⟩ := by rw [List.getElem?_eq_getElem hk, hkP]
  obtain ⟨v, hv, hclose⟩ := (C97_uniform hF hs (exact_options srt).pinv_pos hr hcells).2 k _ hkP'
  exact ⟨g, g', q', r, _, cells, k, v, hre, hfill, hr, hes, rfl, ho, hc, hcells, hkP', hv, hclose _ _ _ hes ho hc⟩

/-- Planes that are not orthogonal to each other, through the point (1/2, 1/3, 1/4). -/
noncomputable def slantedPlanes : List (VecN ℝ 3 × VecN ℝ 3) :=
  [(![1 / 2 + 4 / 5, 1 / 3 - 3 / 5, 0], ![3 / 5, 4 / 5, 0]), (![1, 1 / 3, 1], ![0, 1, 0]), (![0, 0, 1 / 4], ![0, 0, 1])]

/-- C97 on a concrete case: the hypotheses on the planes. -/
example : SpreadNormals (1 / 5) slantedPlanes ∧ BestPoint slantedPlanes ![1 / 2, 1 / 3, 1 / 4] := by
  constructor
  · intro u
    simp only [slantedPlanes, List.map_cons, List.map_nil, List.sum_cons, List.sum_nil, Fin.sum_univ_three]
    simp
    nlinarith [sq_nonneg (u 0 + 3 * u 1), sq_nonneg (u 2)]
  · apply C97_common
    intro pn hpn
    simp only [slantedPlanes, List.mem_cons, List.not_mem_nil, or_false] at hpn
    rcases hpn with rfl | rfl | rfl <;> rw [Fin.sum_univ_three] <;> simp <;> norm_num

end Isomesh
