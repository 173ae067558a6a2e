import Verif.Props.DcManifold
import Verif.Props.MdcDemo

/-! Concrete cases for C72: a ball (no pinched vertex) and a solid with two small holes at opposite corners of a cell
(a pinched vertex). -/

namespace Isomesh
open Spec Relation

/-- A grid of size 4 filled with one material. -/
theorem stone_grid4 (field : ScalarField ℝ) (hm : ∀ p v, field.material p v = .Stone) :
    ∃ g : Grid ℝ, Filled g ∧ g.maxCoord = 2 ∧ ∀ p, InCube 2 p →
      materialAt g p = if field.value (worldPos ⟨0, 0, 0⟩ 1 p) ≤ 0 then .Stone else .Empty := by
  obtain ⟨g0, h0⟩ : ∃ g0, Grid.mk' 4 (⟨0, 0, 0⟩ : Vec3 ℝ) 1 = .ok g0 := ⟨_, rfl⟩
  have hr : g0.Reachable := .mk h0
  have hmax : g0.maxCoord = 2 := by cases h0; rfl
  have hpos : g0.globalPos = ⟨0, 0, 0⟩ := by cases h0; rfl
  have hst : g0.step = 1 := by cases h0; rfl
  obtain ⟨g, e, ⟨hs, hh, -, -⟩, hmm⟩ := C06_fill_materials hr field midSolver
  have hf : Filled g := C07_filled hr (by intro q _; rw [hm]; decide) e
  refine ⟨g, hf, by rw [← hmax]; exact hh, ?_⟩
  intro p hp
  have := hmm p (by rw [hmax]; exact hp)
  rw [materialAt, this, hpos, hst]
  simp only [vertexMaterial_le]
  split
  · rw [hm]; rfl
  · rfl

/-- Empty near the points (0,0,0) and (1,1,1), solid elsewhere. -/
noncomputable def holesField : ScalarField ℝ :=
  { value := fun p => 1 / 2 - (p.x ^ 2 + p.y ^ 2 + p.z ^ 2) * ((p.x - 1) ^ 2 + (p.y - 1) ^ 2 + (p.z - 1) ^ 2),
    grad := fun _ => ⟨0, 0, 1⟩, material := fun _ _ => .Stone }

theorem holes_value {x y z : Int} : 0 < holesField.value (worldPos ⟨0, 0, 0⟩ 1 ⟨x, y, z⟩) ↔
    (x = 0 ∧ y = 0 ∧ z = 0) ∨ (x = 1 ∧ y = 1 ∧ z = 1) := by
  simp only [holesField, worldPos, mul_one, add_zero]
  have hc : (1 / 2 - ((x : ℝ) ^ 2 + (y : ℝ) ^ 2 + (z : ℝ) ^ 2) * (((x : ℝ) - 1) ^ 2 + ((y : ℝ) - 1) ^ 2 + ((z : ℝ) - 1) ^ 2)) =
      1 / 2 - (((x ^ 2 + y ^ 2 + z ^ 2) * ((x - 1) ^ 2 + (y - 1) ^ 2 + (z - 1) ^ 2) : Int) : ℝ) := by push_cast; ring
  rw [hc]
  constructor
  · intro h
    have h1 : (((x ^ 2 + y ^ 2 + z ^ 2) * ((x - 1) ^ 2 + (y - 1) ^ 2 + (z - 1) ^ 2) : Int) : ℝ) < 1 := by linarith
    have h2 : (x ^ 2 + y ^ 2 + z ^ 2) * ((x - 1) ^ 2 + (y - 1) ^ 2 + (z - 1) ^ 2) < 1 := by exact_mod_cast h1
    have h3 : (x ^ 2 + y ^ 2 + z ^ 2) * ((x - 1) ^ 2 + (y - 1) ^ 2 + (z - 1) ^ 2) = 0 := by
      have : 0 ≤ (x ^ 2 + y ^ 2 + z ^ 2) * ((x - 1) ^ 2 + (y - 1) ^ 2 + (z - 1) ^ 2) := by positivity
      omega
    rcases mul_eq_zero.1 h3 with h | h
    · left
      refine ⟨?_, ?_, ?_⟩ <;> nlinarith [sq_nonneg x, sq_nonneg y, sq_nonneg z]
    · right
      refine ⟨?_, ?_, ?_⟩ <;> nlinarith [sq_nonneg (x - 1), sq_nonneg (y - 1), sq_nonneg (z - 1)]
  · rintro (⟨rfl, rfl, rfl⟩ | ⟨rfl, rfl, rfl⟩) <;> norm_num

/-- Empty near the point (0,0,0), solid elsewhere. -/
noncomputable def holeField : ScalarField ℝ :=
  { value := fun p => 1 / 2 - (p.x ^ 2 + p.y ^ 2 + p.z ^ 2), grad := fun _ => ⟨0, 0, 1⟩, material := fun _ _ => .Stone }

theorem hole_value {x y z : Int} : 0 < holeField.value (worldPos ⟨0, 0, 0⟩ 1 ⟨x, y, z⟩) ↔ x = 0 ∧ y = 0 ∧ z = 0 := by
  simp only [holeField, worldPos, mul_one, add_zero]
  have hc : (1 / 2 - ((x : ℝ) ^ 2 + (y : ℝ) ^ 2 + (z : ℝ) ^ 2)) = 1 / 2 - (((x ^ 2 + y ^ 2 + z ^ 2) : Int) : ℝ) := by push_cast; ring
  rw [hc]
  constructor
  · intro h
    have h1 : (((x ^ 2 + y ^ 2 + z ^ 2) : Int) : ℝ) < 1 := by linarith
    have h2 : x ^ 2 + y ^ 2 + z ^ 2 < 1 := by exact_mod_cast h1
    refine ⟨?_, ?_, ?_⟩ <;> nlinarith [sq_nonneg x, sq_nonneg y, sq_nonneg z]
  · rintro ⟨rfl, rfl, rfl⟩; norm_num

/-- An octree of side 4 in a solid block with some empty points near the middle. -/
theorem block_mdc (env : DcEnv ℝ) (field : ScalarField ℝ) (hm : ∀ p v, field.material p v = .Stone) (E : IVec3 → Prop)
    (hE : ∀ p, E p ↔ 0 < field.value (worldPos ⟨0, 0, 0⟩ 1 p))
    (hE1 : ∀ p, E p → (0 ≤ p.x ∧ p.x ≤ 1) ∧ (0 ≤ p.y ∧ p.y ≤ 1) ∧ (0 ≤ p.z ∧ p.z ≤ 1)) :
    ∃ (g : Grid ℝ) (o : MdcOctree ℝ) (q' : Qef ℝ 3) (o' : MdcOctree ℝ), Filled g ∧
      CubeIn g.maxCoord (rootCube o.level) ∧ o.globalScale ≠ 0 ∧ 4 * crossingCells g (rootCube o.level) + 3 < 2 ^ 32 ∧
      o.build env g Qef.new3 = some (q', o') ∧
      (∀ x : CellCrossing, x.In g (rootCube o.level) → ¬ OnBorder (rootCube o.level) x.axis x.at_) ∧
      o.level = 2 ∧ (∀ p, InCube 2 p → (solidAt g p = false ↔ E p)) ∧
      ∀ ε < 0, ∃ r o2, o'.contour ε = some (r, o2) ∧
        (OneFan (triangles r.mesh.indices) ↔ ∀ P, (rootCube o.level).Has P → ¬ TwoHoles g P) := by
  obtain ⟨g, hf, hmax, hv⟩ := stone_grid4 field hm
  obtain ⟨o, hl, hs⟩ : ∃ o : MdcOctree ℝ, o.level = 2 ∧ o.globalScale = 1 :=
    ⟨⟨2, ⟨0, 0, 0⟩, 1, .leaf ⟨0, fun _ => .Empty, 0, []⟩, []⟩, rfl, rfl⟩
  have hs' : o.globalScale ≠ 0 := by rw [hs]; norm_num
  have e2 : rootCube 2 = ⟨⟨-2, -2, -2⟩, 2⟩ := by decide
  have hin : CubeIn g.maxCoord (rootCube o.level) := by
    rintro ⟨x, y, z⟩ hp
    rw [hmax]
    rw [hl, e2] at hp
    simp only [Cube.Closed, Cube.side] at hp
    norm_num at hp
    simp only [InCube]
    omega
  have hsz : 4 * crossingCells g (rootCube o.level) + 3 < 2 ^ 32 := C28_sizes g (by rw [hl]; decide)
  have hsol : ∀ p, InCube 2 p → (solidAt g p = false ↔ E p) := by
    intro p hp
    rw [solidAt_material, hv p hp, hE]
    by_cases h : field.value (worldPos ⟨0, 0, 0⟩ 1 p) ≤ 0
    · rw [if_pos h]; simp [h]
    · rw [if_neg h]; simp [not_le.1 h]
  have hp : 0 < (Qef.new3 : Qef ℝ 3).pinvTolerance := by simp only [Qef.new3]; norm_num
  have hall := fun bounds => C28_completes (env := env) hf o hin (mul_self_pos.2 hs') hp (Or.inr (by rw [hl]; decide)) bounds
  obtain ⟨q', o', -, hb, -⟩ := hall []
  have hbord : ∀ x : CellCrossing, x.In g (rootCube o.level) → ¬ OnBorder (rootCube o.level) x.axis x.at_ := by
    rintro ⟨P, D, x, y, z⟩ ⟨-, ⟨h1, h2⟩, -⟩ ⟨R, hR, hRn⟩
    rw [hmax] at h1
    simp only [CellCrossing.edge] at h1 h2 hR
    have i1 := h1 ⟨x, y, z⟩ (by cases D <;> simp [edgeVertices])
    have i2 := h1 (edgeEnd D ⟨x, y, z⟩) (by cases D <;> simp [edgeVertices, edgeEnd])
    have hor : E ⟨x, y, z⟩ ∨ E (edgeEnd D ⟨x, y, z⟩) := by
      rw [← hsol _ i1, ← hsol _ i2]
      cases h3 : solidAt g ⟨x, y, z⟩ <;> cases h4 : solidAt g (edgeEnd D ⟨x, y, z⟩) <;> rw [h3, h4] at h2 <;> simp at h2 ⊢
    have hor' := hor.imp (hE1 _) (hE1 _)
    apply hRn
    rw [hl, e2]
    simp only [Cube.Has, Cube.side]
    norm_num
    cases D <;> simp only [cellsAroundEdge, shift, List.mem_cons, List.not_mem_nil, or_false] at hR <;>
      simp only [edgeEnd, shift] at hor' <;> rcases hR with rfl | rfl | rfl | rfl <;> simp only <;> omega
  refine ⟨g, o, q', o', hf, hin, hs', hsz, hb, hbord, hl, hsol, ?_⟩
  intro ε hε
  obtain ⟨M, V, hS, hcon⟩ := C28_contour hf hin hsz (mul_self_pos.2 hs') hb
  obtain ⟨o1, h1, h2⟩ := hcon []
  obtain ⟨o2, h3⟩ := h2 ε
  have ho : o1 = o' := by
    unfold contourAll at h1
    simpa using h1.symm
  subst ho
  exact ⟨_, o2, h3, C72_mdc_contour hf hin hsz (mul_self_pos.2 hs') hb hbord h1 (div_neg_of_neg_of_pos hε (mul_self_pos.2 hs')) h3⟩

/-- C72, concrete: the hypotheses of `C72_mdc_contour` are met, both without and with a pinched vertex. -/
theorem C72_demo (env : DcEnv ℝ) (pinched : Bool) : ∃ (g : Grid ℝ) (o : MdcOctree ℝ) (q' : Qef ℝ 3) (o' : MdcOctree ℝ), Filled g ∧
    CubeIn g.maxCoord (rootCube o.level) ∧ o.globalScale ≠ 0 ∧ 4 * crossingCells g (rootCube o.level) + 3 < 2 ^ 32 ∧
    o.build env g Qef.new3 = some (q', o') ∧
    (∀ x : CellCrossing, x.In g (rootCube o.level) → ¬ OnBorder (rootCube o.level) x.axis x.at_) ∧
    solidAt g ⟨0, 0, 0⟩ = false ∧ solidAt g ⟨1, 0, 0⟩ = true ∧
    ∀ ε < 0, ∃ r o2, o'.contour ε = some (r, o2) ∧ (OneFan (triangles r.mesh.indices) ↔ pinched = false) := by
  have e2 : rootCube 2 = ⟨⟨-2, -2, -2⟩, 2⟩ := by decide
  cases pinched with
  | false =>
    obtain ⟨g, o, q', o', h1, h2, h3, h4, h5, h6, hl, hsol, h7⟩ := block_mdc env holeField (fun _ _ => rfl)
      (fun p => p.x = 0 ∧ p.y = 0 ∧ p.z = 0) (fun ⟨x, y, z⟩ => hole_value.symm) (fun p hp => by omega)
    refine ⟨g, o, q', o', h1, h2, h3, h4, h5, h6, (hsol _ (by decide)).2 (by decide), ?_, ?_⟩
    · rw [← Bool.not_eq_false, hsol _ (by decide)]; decide
    · intro ε hε
      obtain ⟨r, o2, e, hr⟩ := h7 ε hε
      refine ⟨r, o2, e, hr.trans ⟨fun _ => rfl, fun _ P hP ⟨i, hi⟩ => ?_⟩⟩
      rw [hl, e2] at hP
      have hc : ∀ j, InCube 2 (octCorner P 1 j) := by
        intro j
        obtain ⟨x, y, z⟩ := P
        simp only [Cube.Has, Cube.side] at hP
        norm_num at hP
        fin_cases j <;> simp [octCorner, octOff, InCube] <;> omega
      have a1 := (hsol _ (hc i)).1 ((hi i).2 (Or.inl rfl))
      have a2 := (hsol _ (hc ⟨7 - i, by omega⟩)).1 ((hi ⟨7 - i, by omega⟩).2 (Or.inr (by dsimp only; omega)))
      exact opposite_corners (P := P) (i := i) (j := ⟨7 - i, by omega⟩) (by dsimp only; omega) .X (by
        simp only [IVec3.get]; rw [a1.1, a2.1])
  | true =>
    obtain ⟨g, o, q', o', h1, h2, h3, h4, h5, h6, hl, hsol, h7⟩ := block_mdc env holesField (fun _ _ => rfl)
      (fun p => (p.x = 0 ∧ p.y = 0 ∧ p.z = 0) ∨ (p.x = 1 ∧ p.y = 1 ∧ p.z = 1)) (fun ⟨x, y, z⟩ => holes_value.symm)
      (fun p hp => by omega)
    refine ⟨g, o, q', o', h1, h2, h3, h4, h5, h6, (hsol _ (by decide)).2 (by decide), ?_, ?_⟩
    · rw [← Bool.not_eq_false, hsol _ (by decide)]; decide
    · intro ε hε
      obtain ⟨r, o2, e, hr⟩ := h7 ε hε
      refine ⟨r, o2, e, hr.trans ⟨fun hh => ?_, fun hh => by simp at hh⟩⟩
      exfalso
      refine hh ⟨0, 0, 0⟩ ?_ ⟨0, fun j => ?_⟩
      · rw [hl, e2]; decide
      · rw [hsol _ (by revert j; decide)]
        revert j
        decide

/-- The same for uniform dual contouring. -/
theorem C72_uniform_demo (env : DcEnv ℝ) (hsort : IsSort env.srt) (pinched : Bool) : ∃ (g : Grid ℝ) (q : Qef ℝ 3) (r : PlacedMesh ℝ), Filled g ∧
    dualContouring env g Qef.new3 = some (q, r) ∧ (∀ D p, CrossingEdge g D p → InteriorEdge g.maxCoord D p) ∧
    CrossingEdge g .X ⟨0, 0, 0⟩ ∧ (OneFan (triangles r.mesh.indices) ↔ pinched = false) := by
  have gen : ∀ (field : ScalarField ℝ) (hm : ∀ p v, field.material p v = .Stone) (E : IVec3 → Prop)
      (hE : ∀ p, E p ↔ 0 < field.value (worldPos ⟨0, 0, 0⟩ 1 p))
      (hE1 : ∀ p, E p → (0 ≤ p.x ∧ p.x ≤ 1) ∧ (0 ≤ p.y ∧ p.y ≤ 1) ∧ (0 ≤ p.z ∧ p.z ≤ 1)) (h0 : E ⟨0, 0, 0⟩) (h1 : ¬ E ⟨1, 0, 0⟩),
      ∃ (g : Grid ℝ) (q : Qef ℝ 3) (r : PlacedMesh ℝ), Filled g ∧ dualContouring env g Qef.new3 = some (q, r) ∧
        (∀ D p, CrossingEdge g D p → InteriorEdge g.maxCoord D p) ∧ CrossingEdge g .X ⟨0, 0, 0⟩ ∧ g.maxCoord = 2 ∧
        (∀ p, InCube 2 p → (solidAt g p = false ↔ E p)) ∧
        (OneFan (triangles r.mesh.indices) ↔ ∀ P, CellIn g.maxCoord P → ∀ kind, ¬ OppositeCorners g P kind) := by
    intro field hm E hE hE1 h0 h1
    obtain ⟨g, hf, hmax, hv⟩ := stone_grid4 field hm
    have hsol : ∀ p, InCube 2 p → (solidAt g p = false ↔ E p) := by
      intro p hp
      rw [solidAt_material, hv p hp, hE]
      by_cases h : field.value (worldPos ⟨0, 0, 0⟩ 1 p) ≤ 0
      · rw [if_pos h]; simp [h]
      · rw [if_neg h]; simp [not_le.1 h]
    have hp : 0 < (Qef.new3 : Qef ℝ 3).pinvTolerance := by simp only [Qef.new3]; norm_num
    obtain ⟨-, q, r, hr, -⟩ := C18_vertices hf hsort hp
    have hbord : ∀ D p, CrossingEdge g D p → InteriorEdge g.maxCoord D p := by
      rintro D ⟨x, y, z⟩ ⟨h1, h2⟩ R hR
      rw [hmax] at h1 ⊢
      have i1 := h1 ⟨x, y, z⟩ (by cases D <;> simp [edgeVertices])
      have i2 := h1 (edgeEnd D ⟨x, y, z⟩) (by cases D <;> simp [edgeVertices, edgeEnd])
      have hor : E ⟨x, y, z⟩ ∨ E (edgeEnd D ⟨x, y, z⟩) := by
        rw [← hsol _ i1, ← hsol _ i2]
        cases h3 : solidAt g ⟨x, y, z⟩ <;> cases h4 : solidAt g (edgeEnd D ⟨x, y, z⟩) <;> rw [h3, h4] at h2 <;> simp at h2 ⊢
      have hor' := hor.imp (hE1 _) (hE1 _)
      rw [cellIn_iff]
      cases D <;> simp only [cellsAroundEdge, shift, List.mem_cons, List.not_mem_nil, or_false] at hR <;>
        simp only [edgeEnd, shift] at hor' <;> rcases hR with rfl | rfl | rfl | rfl <;> simp only <;> omega
    refine ⟨g, q, r, hf, hr, hbord, ⟨by rw [hmax]; decide, ?_⟩, hmax, hsol, C72_uniform_dc hf hsort hp hr hbord⟩
    rw [(hsol _ (by decide)).2 h0]
    show false ≠ solidAt g ⟨1, 0, 0⟩
    intro hc
    exact h1 ((hsol _ (by decide)).1 hc.symm)
  have hcorner : ∀ {P : IVec3}, CellIn 2 P → ∀ j, InCube 2 (octCorner P 1 j) := by
    intro P hP j
    exact hP _ cell_closed
  cases pinched with
  | false =>
    obtain ⟨g, q, r, h1, h2, h3, h4, hmax, hsol, h5⟩ := gen holeField (fun _ _ => rfl)
      (fun p => p.x = 0 ∧ p.y = 0 ∧ p.z = 0) (fun ⟨x, y, z⟩ => hole_value.symm) (fun p hp => by omega) (by decide) (by decide)
    refine ⟨g, q, r, h1, h2, h3, h4, h5.trans ⟨fun _ => rfl, fun _ P hP kind ⟨i, hi⟩ => ?_⟩⟩
    rw [hmax] at hP
    have hc := hcorner hP
    have a1 := (hi i).2 (Or.inl rfl)
    have a2 := (hi ⟨7 - i, by omega⟩).2 (Or.inr (by dsimp only; omega))
    cases kind with
    | false =>
      exact opposite_corners (P := P) (i := i) (j := ⟨7 - i, by omega⟩) (by dsimp only; omega) .X (by
        simp only [IVec3.get]; rw [((hsol _ (hc _)).1 a1).1, ((hsol _ (hc _)).1 a2).1])
    | true =>
      -- six empty corners, but at most one empty point
      obtain ⟨j, hji, hij, -⟩ := hole_step i
      have e1 : solidAt g (octCorner P 1 j) = false := by
        rw [← Bool.not_eq_true, hi]
        push Not
        exact ⟨hji, hij⟩
      have e2 : solidAt g (octCorner P 1 ⟨7 - j, by omega⟩) = false := by
        rw [← Bool.not_eq_true, hi]
        push Not
        refine ⟨?_, ?_⟩
        · rintro rfl; dsimp only at hij; omega
        · dsimp only
          intro hh
          apply hji
          ext
          omega
      exact opposite_corners (P := P) (i := j) (j := ⟨7 - j, by omega⟩) (by dsimp only; omega) .X (by
        simp only [IVec3.get]; rw [((hsol _ (hc _)).1 e1).1, ((hsol _ (hc _)).1 e2).1])
  | true =>
    obtain ⟨g, q, r, h1, h2, h3, h4, hmax, hsol, h5⟩ := gen holesField (fun _ _ => rfl)
      (fun p => (p.x = 0 ∧ p.y = 0 ∧ p.z = 0) ∨ (p.x = 1 ∧ p.y = 1 ∧ p.z = 1)) (fun ⟨x, y, z⟩ => holes_value.symm)
      (fun p hp => by omega) (by decide) (by decide)
    refine ⟨g, q, r, h1, h2, h3, h4, h5.trans ⟨fun hh => ?_, fun hh => by simp at hh⟩⟩
    exfalso
    refine hh ⟨0, 0, 0⟩ ?_ false ⟨0, fun j => ?_⟩
    · rw [hmax]; decide
    · rw [hsol _ (by revert j; decide)]
      revert j
      decide

end Isomesh
