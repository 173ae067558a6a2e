import Verif.Props.MdcClosed
import Verif.Props.DcDemo

/-! A concrete case for the theorems about `MDC_Octree` (C28, C29, C59, C60): an octree of side 2 around a ball. -/

namespace Isomesh
open Spec Relation

/-- The octree over the ball grid: the hypotheses of C28, C29, C59 and C60 are met; two cells around an edge have different
vertices for a negative bound and share a vertex for a great one; the surface does not reach the boundary. -/
theorem ball_mdc (env : DcEnv ℝ) : ∃ (g : Grid ℝ) (o : MdcOctree ℝ) (q' : Qef ℝ 3) (o' : MdcOctree ℝ), Filled g ∧ o.level = 1 ∧
    CubeIn g.maxCoord (rootCube o.level) ∧ o.globalScale ≠ 0 ∧ 4 * crossingCells g (rootCube o.level) + 3 < 2 ^ 32 ∧
    o.build env g Qef.new3 = some (q', o') ∧
    (∀ x : CellCrossing, x.In g (rootCube o.level) → ¬ OnBorder (rootCube o.level) x.axis x.at_) ∧
    ∃ x y : CellCrossing, x.In g (rootCube o.level) ∧ y.In g (rootCube o.level) ∧
      ∀ M V, MdcSeries env g Qef.new3 (rootCube o.level) o.globalScale M V →
        V (-1) x ≠ V (-1) y ∧ (∃ E, ∀ ε, E ≤ ε → V ε x = V ε y) ∧ triangles (M (-1)).indices ≠ [] := by
  obtain ⟨g, oo, -, -, hf, hl, hin, -, -, hx, hbord⟩ := ball_octree env
  rw [hl] at hin hbord
  let o : MdcOctree ℝ := ⟨1, ⟨0, 0, 0⟩, 1, .leaf ⟨0, fun _ => .Empty, 0, []⟩, []⟩
  have hp : 0 < (Qef.new3 : Qef ℝ 3).pinvTolerance := by simp only [Qef.new3]; norm_num
  obtain ⟨q', o', -, hb, -⟩ := C28_completes (env := env) hf o hin (by norm_num [o]) hp (Or.inr (by decide)) []
  have hnb := hbord _ _ hx
  have hi := fun i => edge_piece_in (c := rootCube 1) (e := ⟨.X, ⟨0, 0, 0⟩⟩) hx hnb i
  refine ⟨g, o, q', o', hf, rfl, hin, by norm_num [o], C28_sizes g (by decide), hb, ?_, LEdge.seen ⟨.X, ⟨0, 0, 0⟩⟩ 0,
    LEdge.seen ⟨.X, ⟨0, 0, 0⟩⟩ 1, hi 0, hi 1, ?_⟩
  · intro x hx
    exact hbord _ _ hx.2.1
  · intro M V hS
    have hcells : ∀ i j : Fin 4, i ≠ j → (LEdge.seen ⟨.X, ⟨0, 0, 0⟩⟩ i).cell ≠ (LEdge.seen ⟨.X, ⟨0, 0, 0⟩⟩ j).cell := by decide
    have hne : ∀ i j : Fin 4, i ≠ j → V (-1) (LEdge.seen ⟨.X, ⟨0, 0, 0⟩⟩ i) ≠ V (-1) (LEdge.seen ⟨.X, ⟨0, 0, 0⟩⟩ j) := by
      intro i j hij e
      exact hcells i j hij ((C59_fine (by norm_num [o]) hS (by norm_num) (hi i) (hi j)).1 e).1
    refine ⟨hne 0 1 (by decide), ?_, ?_⟩
    · obtain ⟨E, hE⟩ := C59_coarse hS
      exact ⟨E, fun ε h => (hE ε h _ _ (hi 0) (hi 1)).2 (EqvGen.rel _ _ ⟨hi 0, hi 1, Or.inr ⟨rfl, hnb⟩⟩)⟩
    · obtain ⟨es, -, h2, h3⟩ := (hS.mesh (-1)).quads
      rw [h3]
      intro h0
      rw [List.flatMap_eq_nil_iff] at h0
      have := h0 ⟨.X, ⟨0, 0, 0⟩⟩ ((h2 _).2 ⟨hx, hnb⟩)
      unfold octQuad at this
      rw [List.filter_eq_nil_iff] at this
      have h01 := hne 0 1 (by decide)
      have h12 := hne 1 2 (by decide)
      have h02 := hne 0 2 (by decide)
      by_cases hs : solidAt g ⟨0, 0, 0⟩ = true
      · rw [if_pos hs] at this
        exact this _ List.mem_cons_self (decide_eq_true ⟨h01, h12, h02⟩)
      · rw [if_neg hs] at this
        exact this _ List.mem_cons_self (decide_eq_true ⟨h02, h12.symm, h01⟩)

end Isomesh
