import Verif.Props.Box

/-! C96 for manifold dual contouring with a negative error bound. -/

namespace Isomesh
open Spec

variable {f : ScalarField ℝ} {sv : ZeroFinder ℝ} {lo hi : Vec3 ℝ} {g g' : Grid ℝ}

/-- All crossed edges of a cell of a box are in one set of the table. -/
theorem boxMask_set : ∀ m < 256, ∀ a b c d e f : Bool,
    (∀ j : Fin 8, Spec.solid m j = ((if (octOff j).x = 0 then a else b) && (if (octOff j).y = 0 then c else d) && (if (octOff j).z = 0 then e else f))) →
    ∀ i : Fin 12, ∀ j : Fin 12, Spec.crosses m i = true → Spec.crosses m j = true → mdcSet m i = mdcSet m j := by
  decide +kernel

/-- The surface of a box has one sheet in a cell. -/
theorem box_sheet (hg : g.Reachable) (hf : BoxField f lo hi) (hp : ProperField f) (h : g.fill f sv = some g') {P : IVec3} (hP : CellIn g'.maxCoord P)
    {e e' : LEdge} (he : CrossingOf g' P e) (he' : CrossingOf g' P e') : SameSheet g' P e e' := by
  classical
  have hF := C07_filled hg hp h
  have hcv : ∀ i, octCorner P 1 i ∈ cellVertices P := by
    intro i
    obtain ⟨x, y, z⟩ := P
    fin_cases i <;> simp [octCorner, octOff, cellVertices, shift]
  have hsol := fun i => solidAt_fill hg hp h (hP _ (hcv i))
  have hat : ∀ i, ∃ m, g'.at (octCorner P 1 i) = some m := fun i => hF.written _ (hP _ (hcv i))
  choose corners hc using hat
  obtain ⟨i, rfl, ci⟩ := (crossingOf_iff hP hc e).1 he
  obtain ⟨j, rfl, cj⟩ := (crossingOf_iff hP hc e').1 he'
  rw [sheet_iff hP hc he he']
  refine boxMask_set _ (mdcMask_lt corners) (decide (Meets g.globalPos g.step lo hi .X P.x)) (decide (Meets g.globalPos g.step lo hi .X (P.x + 1)))
    (decide (Meets g.globalPos g.step lo hi .Y P.y)) (decide (Meets g.globalPos g.step lo hi .Y (P.y + 1)))
    (decide (Meets g.globalPos g.step lo hi .Z P.z)) (decide (Meets g.globalPos g.step lo hi .Z (P.z + 1))) (fun j => ?_) i j ci cj
  rw [mdcMask_solid, ← solid_of (hc j), hsol]
  have hiff := (boxSolid_iff (origin := g.globalPos) (step := g.step) hf (octCorner P 1 j)).trans forall_axis
  rw [Bool.eq_iff_iff, decide_eq_true_iff, hiff]
  fin_cases j <;> simp [octCorner, octOff, IVec3.get, and_assoc]

theorem oct_covers {v : Fin 4 → Nat} (hv : ∀ i j, v i = v j → i = j) (b : Bool) : CoversQuad v (octQuad (v 0) (v 1) (v 2) (v 3) b) := by
  have h01 : v 0 ≠ v 1 := fun h => absurd (hv _ _ h) (by decide)
  have h02 : v 0 ≠ v 2 := fun h => absurd (hv _ _ h) (by decide)
  have h03 : v 0 ≠ v 3 := fun h => absurd (hv _ _ h) (by decide)
  have h12 : v 1 ≠ v 2 := fun h => absurd (hv _ _ h) (by decide)
  have h23 : v 2 ≠ v 3 := fun h => absurd (hv _ _ h) (by decide)
  unfold CoversQuad HasHalf octQuad
  cases b <;> simp [h01, h02, h03, h12, h23, Ne.symm h12, Ne.symm h23]

theorem around_distinct {D : Axis} {p : IVec3} {c : Fin 4 → IVec3} (h : cellsAroundEdge D p = [c 0, c 1, c 2, c 3]) (i j : Fin 4) (hij : c i = c j) : i = j := by
  obtain ⟨⟨a1, a2⟩, ⟨b1, b2⟩, ⟨c1, c2⟩, ⟨d1, d2⟩⟩ := frame_cells h
  have hb := congrArg (fun u => IVec3.get u (frameB D)) hij
  have hc := congrArg (fun u => IVec3.get u (frameC D)) hij
  fin_cases i <;> fin_cases j <;> simp only [Fin.zero_eta, Fin.mk_one, Fin.reduceFinMk] at * <;> first | rfl | (exfalso; omega)

/-- C96 (MDC octree): the same for the mesh of an MDC octree contoured with a negative error bound, after any earlier `contour` calls. -/
theorem C96_mdc (hg : g.Reachable) (hstep : 0 < g.step) (hf : BoxField f lo hi) (hp : ProperField f) (h : g.fill f sv = some g')
    (hoff : OffLattice g.globalPos g.step lo hi) (hfind : FindsFaces f sv g.globalPos g.step lo hi) {env : DcEnv ℝ}
    {solver q' : Qef ℝ 3} (ho : ExactOptions env solver) {o o' o1 o2 : MdcOctree ℝ}
    (ho1 : o.globalPos = g.globalPos) (ho2 : o.globalScale = g.step) (hin : CubeIn g'.maxCoord (rootCube o.level)) (hlevel : o.level ≤ 9)
    (hb : o.build env g' solver = some (q', o')) {bounds : List ℝ} (h1 : contourAll o' bounds = some o1) {ε : ℝ} (hε : ε < 0)
    {r : PlacedMesh ℝ} (h2 : o1.contour ε = some (r, o2)) :
    (∀ q, OnMesh r q → OnBox lo hi q) ∧
    (Thick g.step lo hi → BoxBetween g.globalPos g.step lo hi (rootCube o.level).lo
        (shift (rootCube o.level).lo (rootCube o.level).side (rootCube o.level).side (rootCube o.level).side) →
      ∀ q, OnMesh r q ↔ OnBox lo hi q) := by
  have hsz := C28_sizes g' hlevel
  obtain ⟨es, Q, v, cell, hD, hV⟩ := mdc_solved hg hstep hp h ho1 ho2 hin hsz hb h1 hε h2
  have hF := C07_filled hg hp h
  have hsc : o.globalScale ≠ 0 := by rw [ho2]; exact hstep.ne'
  obtain ⟨M, V, hS, hall⟩ := C28_contour hF hin hsz (mul_self_pos.2 hsc) hb
  obtain ⟨o1', e1, e2⟩ := hall bounds
  rw [h1] at e1; cases e1
  obtain ⟨o2', e3⟩ := e2 ε
  rw [h2] at e3; cases e3
  have hM : BoxMesh f ⟨M ε, o.globalPos, o.globalScale⟩ g.globalPos g.step lo hi (rootCube o.level).Has es Q v cell := by
    refine ⟨hD, fun e he => ?_, fun e he i => ?_⟩
    · obtain ⟨⟨b, hb'⟩, -⟩ := hV e he
      rw [hb']
      refine oct_covers (fun i j hij => ?_) b
      exact around_distinct (c := fun i => cell (v e i)) (hD.cells e he) i j (by rw [hij])
    obtain ⟨a, X, w, ha, hfit, hpos⟩ := (hV e he).2 i
    refine ⟨a, ha, fun b => ?_⟩
    have hcm : cell (v e i) ∈ cellsAroundEdge e.axis e.at_ := by
      rw [hD.cells e he]; fin_cases i <;> simp
    have hPin := cubeIn_has hin (((hD.mem e).1 he).2 _ hcm)
    have hsol : SolvedAt env g' solver (cell (v e i)) w.position.toVecN := by
      generalize cell (v e i) = P at *
      obtain ⟨c, hc⟩ : ∃ c : Cube, c = ⟨P, 0⟩ := ⟨_, rfl⟩
      rw [← hc] at hfit
      cases hfit with
      | @cell P' X w es' q1 ps k1 k2 k3 k4 k5 =>
        cases hc
        obtain ⟨x, hx, hX⟩ := k1
        obtain ⟨q2, y, q3, m1, m2, m3, m4⟩ := k5
        have hy : w.position.toVecN = y := by rw [m2]; funext i; fin_cases i <;> rfl
        refine ⟨es', solver, q1, q2, k2, fun e' => ?_, rfl, rfl, k4, ?_⟩
        · rw [k3 e', hX]
          constructor
          · rintro ⟨n1, -, n2, -⟩
            exact ⟨n1, n2.2⟩
          · rintro ⟨n1, n2⟩
            have hcr : CrossingOf g' P ⟨e'.axis, e'.lesser⟩ := ⟨(hF.edge_iff _ _).1 ⟨e', (mem_edgeList hF).1 n1, rfl⟩, n2⟩
            exact ⟨n1, rfl, hcr, box_sheet hg hf hp h hPin ((hX x).1 hx).2.1 hcr⟩
        · rw [hy]
          have e1 : cellLo (K := ℝ) P = ![(P.x : ℝ), P.y, P.z] := rfl
          have e2 : cellHi (K := ℝ) P = ![((P.x + 2 ^ 0 : Int) : ℝ), ((P.y + 2 ^ 0 : Int) : ℝ), ((P.z + 2 ^ 0 : Int) : ℝ)] := by
            unfold cellHi; push_cast; simp
          rw [e1, e2]; exact m1
      | @node c X w kids q1 k1 k2 k3 =>
        exfalso
        obtain ⟨k, hk⟩ := List.exists_mem_of_ne_nil kids k1
        have := (k3 k hk).2
        rw [hc] at this
        exact absurd this (Nat.not_lt_zero _)
    have := box_position hg hstep hf hp h hoff hfind ho hPin hsol ⟨e.axis, e.at_, ((hD.mem e).1 he).1, around_edge hcm⟩ b
    rw [toVecN_axis] at this
    rw [meshToWorld_get, hpos]
    dsimp only
    rw [ho1, ho2]
    exact this
  refine hM.result hf hstep fun P hP => ?_
  have hx := hP .X
  have hy := hP .Y
  have hz := hP .Z
  simp only [IVec3.get, shift] at hx hy hz
  exact ⟨hx, hy, hz⟩

/-- C96 for the cube of side 3 and an MDC octree. -/
theorem cube_mdc (srt : List (DcEntry ℝ) → List (DcEntry ℝ)) : ∃ (g g' : Grid ℝ) (o o' o1 o2 : MdcOctree ℝ) (q' : Qef ℝ 3) (r : PlacedMesh ℝ), g.Reachable ∧
    g.fill cubeField (regulaFalsiFinder 0 8) = some g' ∧ o.build (exactEnv srt) g' Qef.new3 = some (q', o') ∧
    contourAll o' [1, -1] = some o1 ∧ o1.contour (-1) = some (r, o2) ∧
    ∀ q, OnMesh r q ↔ OnBox ⟨-3 / 2, -3 / 2, -3 / 2⟩ ⟨3 / 2, 3 / 2, 3 / 2⟩ q := by
  obtain ⟨g, e, hgp⟩ : ∃ g, Grid.mk' 4 (⟨0, 0, 0⟩ : Vec3 ℝ) 1 = .ok g ∧ g.globalPos = ⟨0, 0, 0⟩ ∧ g.step = 1 ∧ g.maxCoord = 2 := ⟨_, rfl, rfl, rfl, rfl⟩
  have hre : g.Reachable := .mk e
  have hstep : 0 < g.step := by rw [hgp.2.1]; norm_num
  have hprop : ProperField cubeField := by intro q _; simp [cubeField]
  obtain ⟨g', hfill, ⟨-, hhf, -, -⟩, -⟩ := C06_fill_materials hre cubeField (regulaFalsiFinder 0 8)
  have hF := C07_filled hre hprop hfill
  have hm' : g'.maxCoord = 2 := by rw [← hgp.2.2]; exact hhf
  obtain ⟨o, ho, ho1, ho2⟩ : ∃ o : MdcOctree ℝ, o.level = 2 ∧ o.globalPos = g.globalPos ∧ o.globalScale = g.step :=
    ⟨⟨2, g.globalPos, g.step, .leaf ⟨0, fun _ => .Empty, 0, []⟩, []⟩, rfl, rfl, rfl⟩
  have hroot : (rootCube o.level).lo = ⟨-2, -2, -2⟩ ∧ (rootCube o.level).side = 4 := by rw [ho]; exact ⟨rfl, rfl⟩
  have hin : CubeIn g'.maxCoord (rootCube o.level) := by
    rw [hm', ho]
    rintro ⟨x, y, z⟩ hp
    simp only [rootCube, Cube.Closed, Cube.side] at hp
    norm_num at hp
    simp only [InCube]
    omega
  have hs : o.globalScale ≠ 0 := by rw [ho2]; exact hstep.ne'
  have hsz : 4 * crossingCells g' (rootCube o.level) + 3 < 2 ^ 32 := C28_sizes g' (by rw [ho]; norm_num)
  obtain ⟨q', o', -, hb, -⟩ := C28_completes (env := exactEnv srt) hF o hin (mul_self_pos.2 hs) (exact_options srt).pinv_pos
    (Or.inr (by rw [ho]; decide)) [1, -1]
  obtain ⟨M, V, -, hall⟩ := C28_contour hF hin hsz (mul_self_pos.2 hs) hb
  obtain ⟨o1, e1, e2⟩ := hall [1, -1]
  obtain ⟨o2, e3⟩ := e2 (-1)
  refine ⟨g, g', o, o', o1, o2, q', _, hre, hfill, hb, e1, e3, ?_⟩
  refine (C96_mdc hre hstep cube_box hprop hfill (by rw [hgp.1, hgp.2.1]; exact cube_offLattice)
    (by rw [hgp.1, hgp.2.1]; exact C96_finder cube_box one_pos cube_linear 0 8) (exact_options srt) ho1 ho2 hin (by rw [ho]; norm_num) hb e1
    (by norm_num) e3).2 ?_ ?_
  · intro a; rw [hgp.2.1]; cases a <;> norm_num [Vec3.get]
  · intro a; rw [hgp.1, hgp.2.1, hroot.1, hroot.2]; cases a <;> norm_num [Vec3.get, IVec3.get, shift]

end Isomesh
