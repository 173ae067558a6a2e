import Verif.Spec.Convergence
import Verif.Props.Accuracy

/-! Cells and measure (C91). -/

namespace Isomesh
open Spec MeasureTheory Set

/-- A connected set with points inside and outside of `s` has a point on the boundary of `s`. -/
theorem meets_frontier {α : Type} [TopologicalSpace α] {s t : Set α} (ht : IsPreconnected t) {x y : α} (hx : x ∈ t) (hy : y ∈ t)
    (hxs : x ∈ s) (hys : y ∉ s) : ∃ z ∈ t, z ∈ frontier s := by
  by_contra hc
  push Not at hc
  have hcov : t ⊆ interior s ∪ (closure s)ᶜ := by
    intro z hz
    by_cases h : z ∈ closure s
    · left
      by_contra hi
      exact hc z hz ⟨h, hi⟩
    · exact Or.inr h
  have h1 : (t ∩ interior s).Nonempty := ⟨x, hx, (hcov hx).resolve_right fun h => h (subset_closure hxs)⟩
  have h2 : (t ∩ (closure s)ᶜ).Nonempty := ⟨y, hy, (hcov hy).resolve_left fun h => hys (interior_subset h)⟩
  obtain ⟨z, -, h3, h4⟩ := ht _ _ isOpen_interior isClosed_closure.isOpen_compl hcov h1 h2
  exact h4 (interior_subset_closure h3)

/-- Two points at distance at most `d`, one in the body and one not: both are in the layer. -/
theorem layer_of_change {s : Set (Fin 3 → ℝ)} {x y : Fin 3 → ℝ} {d : ℝ} (hd : dist x y ≤ d) (h : ¬ (x ∈ s ↔ y ∈ s)) :
    x ∈ Metric.cthickening d (frontier s) := by
  have hseg : ∃ z ∈ segment ℝ x y, z ∈ frontier s := by
    have hp : IsPreconnected (segment ℝ x y) := (convex_segment x y).isPreconnected
    by_cases hx : x ∈ s
    · exact meets_frontier hp (left_mem_segment ℝ x y) (right_mem_segment ℝ x y) hx fun hy => h ⟨fun _ => hy, fun _ => hx⟩
    · refine meets_frontier hp (right_mem_segment ℝ x y) (left_mem_segment ℝ x y) ?_ hx
      by_contra hy
      exact h ⟨fun hx' => (hx hx').elim, fun hy' => (hy hy').elim⟩
  obtain ⟨z, hz, hf⟩ := hseg
  refine Metric.mem_cthickening_of_dist_le x z d _ hf (le_trans ?_ hd)
  have := (convex_closedBall x (dist y x)).segment_subset (Metric.mem_closedBall_self dist_nonneg) (Metric.mem_closedBall.2 le_rfl) hz
  rw [Metric.mem_closedBall] at this
  rwa [dist_comm z x, dist_comm y x] at this

/-- A half-open cell of the lattice in the world. -/
def cellBox (origin : Vec3 ℝ) (step : ℝ) (P : IVec3) : Set (Fin 3 → ℝ) :=
  pi univ fun i => Ico ((![P.x, P.y, P.z] i : ℝ) * step + ![origin.x, origin.y, origin.z] i)
    ((![P.x, P.y, P.z] i : ℝ) * step + ![origin.x, origin.y, origin.z] i + step)

theorem mem_cellBox {origin : Vec3 ℝ} {step : ℝ} {P : IVec3} {x : Fin 3 → ℝ} : x ∈ cellBox origin step P ↔
    ∀ a, (P.get a : ℝ) * step + origin.get a ≤ (point x).get a ∧ (point x).get a < (P.get a : ℝ) * step + origin.get a + step := by
  simp only [cellBox, mem_univ_pi, mem_Ico, Fin.forall_fin_succ]
  constructor
  · rintro ⟨h1, h2, h3, -⟩ a
    cases a
    · exact h1
    · exact h2
    · exact h3
  · intro h
    exact ⟨h .X, h .Y, h .Z, fun i => i.elim0⟩

theorem cellBox_volume (origin : Vec3 ℝ) {step : ℝ} (hs : 0 < step) (P : IVec3) :
    volume (cellBox origin step P) = ENNReal.ofReal (step ^ 3) := by
  unfold cellBox
  rw [Real.volume_pi_Ico]
  simp only [add_sub_cancel_left, Finset.prod_const, Finset.card_univ, Fintype.card_fin]
  rw [ENNReal.ofReal_pow hs.le]

theorem cellBox_measurable (origin : Vec3 ℝ) (step : ℝ) (P : IVec3) : MeasurableSet (cellBox origin step P) :=
  MeasurableSet.univ_pi fun _ => measurableSet_Ico

theorem cell_coord {step a o : ℝ} {m n : Int} (hs : 0 < step) (h1 : (m : ℝ) * step + o ≤ a) (h2 : a < (m : ℝ) * step + o + step)
    (h3 : (n : ℝ) * step + o ≤ a) (h4 : a < (n : ℝ) * step + o + step) : m = n := by
  have e1 : ((m : ℝ) - n) < 1 := by
    by_contra hc
    nlinarith
  have e2 : ((n : ℝ) - m) < 1 := by
    by_contra hc
    nlinarith
  have f1 : (m : ℝ) < ((n + 1 : Int) : ℝ) := by push_cast; linarith
  have f2 : (n : ℝ) < ((m + 1 : Int) : ℝ) := by push_cast; linarith
  have := Int.cast_lt.1 f1
  have := Int.cast_lt.1 f2
  omega

theorem cellBox_disjoint (origin : Vec3 ℝ) {step : ℝ} (hs : 0 < step) {P Q : IVec3} (h : P ≠ Q) :
    Disjoint (cellBox origin step P) (cellBox origin step Q) := by
  rw [Set.disjoint_left]
  intro x hP hQ
  rw [mem_cellBox] at hP hQ
  have key : ∀ a, P.get a = Q.get a := fun a => cell_coord hs (hP a).1 (hP a).2 (hQ a).1 (hQ a).2
  apply h
  obtain ⟨a, b, c⟩ := P
  obtain ⟨a', b', c'⟩ := Q
  have k1 : a = a' := key .X
  have k2 : b = b' := key .Y
  have k3 : c = c' := key .Z
  rw [k1, k2, k3]

/-- Every point is in a half-open cell. -/
theorem exists_cellBox (origin : Vec3 ℝ) {step : ℝ} (hs : 0 < step) (x : Fin 3 → ℝ) : ∃ P, x ∈ cellBox origin step P := by
  let F : Axis → Int := fun a => ⌊((point x).get a - origin.get a) / step⌋
  refine ⟨⟨F .X, F .Y, F .Z⟩, mem_cellBox.2 fun a => ?_⟩
  have e : (⟨F .X, F .Y, F .Z⟩ : IVec3).get a = F a := by cases a <;> rfl
  rw [e]
  have h1 := Int.floor_le (((point x).get a - origin.get a) / step)
  have h2 := Int.lt_floor_add_one (((point x).get a - origin.get a) / step)
  rw [le_div_iff₀ hs] at h1
  rw [div_lt_iff₀ hs] at h2
  constructor <;> nlinarith

theorem cells_volume (origin : Vec3 ℝ) {step : ℝ} (hs : 0 < step) (C : Finset IVec3) :
    volume (⋃ P ∈ C, cellBox origin step P) = ENNReal.ofReal (C.card * step ^ 3) := by
  rw [measure_biUnion_finset (fun P _ Q _ h => cellBox_disjoint origin hs h) fun P _ => cellBox_measurable origin step P,
    Finset.sum_congr rfl fun P _ => cellBox_volume origin hs P, Finset.sum_const, nsmul_eq_mul,
    ENNReal.ofReal_mul (Nat.cast_nonneg _), ENNReal.ofReal_natCast]

/-- Coordinates of a lattice point in the world. -/
def gridPoint (origin : Vec3 ℝ) (step : ℝ) (p : IVec3) : Fin 3 → ℝ :=
  ![(worldPos origin step p).x, (worldPos origin step p).y, (worldPos origin step p).z]

theorem point_gridPoint (origin : Vec3 ℝ) (step : ℝ) (p : IVec3) : point (gridPoint origin step p) = worldPos origin step p := rfl

theorem cell_dist {origin : Vec3 ℝ} {step : ℝ} (hs : 0 < step) {P p : IVec3} {x : Fin 3 → ℝ} (hx : x ∈ cellBox origin step P)
    (hp : p ∈ cellVertices P) : dist x (gridPoint origin step p) ≤ step := by
  rw [mem_cellBox] at hx
  have key : ∀ a, |(point x).get a - (worldPos origin step p).get a| ≤ step := by
    intro a
    obtain ⟨h1, h2⟩ := hx a
    obtain ⟨h3, h4⟩ := cellVertices_get hp a
    rw [worldPos_get]
    have h3' : (P.get a : ℝ) ≤ p.get a := Int.cast_le.2 h3
    have h4' : (p.get a : ℝ) ≤ P.get a + 1 := by exact_mod_cast h4
    rw [abs_le]
    constructor <;> nlinarith
  rw [dist_pi_le_iff hs.le]
  intro i
  rw [Real.dist_eq]
  fin_cases i
  · exact key .X
  · exact key .Y
  · exact key .Z

/-- Counting cells measures the body up to the layer around its surface. -/
theorem cells_measure (f : ScalarField ℝ) (origin : Vec3 ℝ) {step : ℝ} (hs : 0 < step) {solid touched : Set IVec3} (hfin : touched.Finite)
    (hsol : ∀ P, P ∈ touched → (P ∈ solid ↔ ∀ v ∈ cellVertices P, f.value (worldPos origin step v) ≤ 0))
    (hsub : solid ⊆ touched)
    (htou : ∀ P ∈ touched, ∃ v ∈ cellVertices P, f.value (worldPos origin step v) ≤ 0)
    (hcov : ∀ x ∈ Body f, ∀ P, x ∈ cellBox origin step P → P ∈ touched ∨ ∀ v ∈ cellVertices P, ¬ f.value (worldPos origin step v) ≤ 0)
    (hB : volume (Body f) ≠ ⊤) (hL : volume (Metric.cthickening step (frontier (Body f))) ≠ ⊤) :
    touched.ncard * step ^ 3 ≤ bodyVolume f + layerVolume f step ∧ bodyVolume f ≤ solid.ncard * step ^ 3 + layerVolume f step := by
  have h3 : (0 : ℝ) < step ^ 3 := by positivity
  have hfin' : solid.Finite := hfin.subset hsub
  have lay : ∀ x P v, x ∈ cellBox origin step P → v ∈ cellVertices P → ¬ (x ∈ Body f ↔ f.value (worldPos origin step v) ≤ 0) →
      x ∈ Metric.cthickening step (frontier (Body f)) := fun x P v hx hv h =>
    layer_of_change (y := gridPoint origin step v) (cell_dist hs hx hv) h
  have count : ∀ C : Set IVec3, C.Finite → volume (⋃ P ∈ C, cellBox origin step P) = ENNReal.ofReal (C.ncard * step ^ 3) := by
    intro C hC
    have := cells_volume origin hs hC.toFinset
    rw [← Set.ncard_eq_toFinset_card C hC] at this
    rw [← this]
    simp
  constructor
  · have hss : (⋃ P ∈ touched, cellBox origin step P) ⊆ Body f ∪ Metric.cthickening step (frontier (Body f)) := by
      intro x hx
      obtain ⟨P, hP, hx⟩ := mem_iUnion₂.1 hx
      obtain ⟨v, hv, hfv⟩ := htou P hP
      by_cases hxb : x ∈ Body f
      · exact Or.inl hxb
      · exact Or.inr (lay x P v hx hv fun h => hxb (h.2 hfv))
    have := (measure_mono hss).trans (measure_union_le (μ := volume) _ _)
    rw [count _ hfin] at this
    unfold bodyVolume layerVolume
    rw [← ENNReal.toReal_add hB hL, ← ENNReal.ofReal_le_iff_le_toReal (ENNReal.add_ne_top.2 ⟨hB, hL⟩)]
    exact this
  · have hss : Body f ⊆ (⋃ P ∈ solid, cellBox origin step P) ∪ Metric.cthickening step (frontier (Body f)) := by
      intro x hxb
      obtain ⟨P, hx⟩ := exists_cellBox origin hs x
      by_cases hall : ∀ v ∈ cellVertices P, f.value (worldPos origin step v) ≤ 0
      · left
        rcases hcov x hxb P hx with hP | hno
        · exact mem_iUnion₂.2 ⟨P, (hsol P hP).2 hall, hx⟩
        · exact (hno P (by simp [cellVertices, shift]) (hall P (by simp [cellVertices, shift]))).elim
      · right
        push Not at hall
        obtain ⟨v, hv, hfv⟩ := hall
        exact lay x P v hx hv fun h => absurd (h.1 hxb) (not_le.2 hfv)
    have := (measure_mono hss).trans (measure_union_le (μ := volume) _ _)
    rw [count _ hfin'] at this
    unfold bodyVolume layerVolume
    have h0 : (0 : ℝ) ≤ solid.ncard * step ^ 3 := by positivity
    rw [← ENNReal.toReal_ofReal h0, ← ENNReal.toReal_add ENNReal.ofReal_ne_top hL]
    exact ENNReal.toReal_mono (ENNReal.add_ne_top.2 ⟨ENNReal.ofReal_ne_top, hL⟩) this

end Isomesh
