import Verif.Proofs.Convergence
import Verif.Props.ChunkVolume
import Mathlib.MeasureTheory.Constructions.BorelSpace.Metric
import Mathlib.Analysis.Convex.Measure

/-! C91: the volume of a marching cubes mesh converges to the volume of the body. -/

namespace Isomesh
open Spec MeasureTheory Set Filter Topology

theorem body_bounded {f : ScalarField ℝ} {B : ℝ} (h : ∀ q : Vec3 ℝ, f.value q ≤ 0 → ∀ a, |q.get a| ≤ B) : Bornology.IsBounded (Body f) := by
  refine (Metric.isBounded_closedBall (x := (0 : Fin 3 → ℝ)) (r := |B|)).subset fun x hx => ?_
  rw [Metric.mem_closedBall, dist_pi_le_iff (abs_nonneg B)]
  intro i
  rw [Real.dist_eq, Pi.zero_apply, sub_zero]
  have := h (point x) hx
  refine le_trans ?_ (le_abs_self B)
  fin_cases i
  · exact this .X
  · exact this .Y
  · exact this .Z

theorem body_finite {f : ScalarField ℝ} (h : Bornology.IsBounded (Body f)) (d : ℝ) :
    volume (Body f) ≠ ⊤ ∧ volume (Metric.cthickening d (frontier (Body f))) ≠ ⊤ :=
  ⟨h.measure_lt_top.ne, ((h.closure.subset frontier_subset_closure).cthickening).measure_lt_top.ne⟩

/-- C91: let the body be strictly inside the grid.  The volume enclosed by the marching cubes mesh differs from the volume of the body by at most
the volume of the layer of one grid step around the body's surface. -/
theorem C91_volume {g g' : Grid ℝ} (hg : g.Reachable) (hstep : 0 < g.step) {f : ScalarField ℝ} (hp : ProperField f) {sv : ZeroFinder ℝ}
    (hsv : StaysOnEdges f sv g.globalPos g.step) (hin : BodyInGrid f g)
    (h : g.fill f sv = some g') (nrm : Vec3 ℝ → Vec3 ℝ) {r : PlacedMesh ℝ} (hr : marchingCubes nrm g' = some r) :
    |enclosedVolume r - bodyVolume f| ≤ layerVolume f g.step := by
  have hclear : ClearOfBox f (worldPos g.globalPos g.step) (-g.maxCoord) g.maxCoord := by
    rintro p - ⟨a, ha⟩
    by_contra hc
    obtain ⟨h1, h2⟩ := hin _ (not_lt.1 hc) a
    rw [worldPos_get] at h1 h2
    rcases ha with ha | ha
    · rw [ha] at h1
      push_cast at h1
      exact lt_irrefl _ h1
    · rw [ha] at h2
      exact lt_irrefl _ h2
  obtain ⟨k1, k2⟩ := C81_fill hg hstep hp hsv hclear h nrm hr
  have hbd : Bornology.IsBounded (Body f) := by
    let B : Axis → ℝ := fun a => |(g.maxCoord : ℝ) * g.step| + |g.globalPos.get a|
    refine body_bounded (B := B .X + B .Y + B .Z) fun q hq a => ?_
    obtain ⟨h1, h2⟩ := hin q hq a
    have hB : ∀ a, 0 ≤ B a := fun a => by positivity
    have h3 : |q.get a| ≤ B a := by
      rw [abs_le]
      have := le_abs_self ((g.maxCoord : ℝ) * g.step)
      have := neg_abs_le ((g.maxCoord : ℝ) * g.step)
      have := le_abs_self (g.globalPos.get a)
      have := neg_abs_le (g.globalPos.get a)
      constructor <;> simp only [B] <;> linarith
    have := hB .X
    have := hB .Y
    have := hB .Z
    cases a <;> linarith
  have hfin : (touchedCells g.maxCoord fun p => f.value (worldPos g.globalPos g.step p) ≤ 0).Finite := by
    have hwf := (C07_filled hg hp h).wf
    obtain ⟨g'', hfill, ⟨hs, hh, -, -⟩, -⟩ := C06_fill_materials hg f sv
    rw [h] at hfill; cases hfill
    have e : (g'.size : Int) = 2 * g.maxCoord := by
      have := hwf.half_eq
      rw [hh] at this
      exact this
    exact (boxCells g'.size ⟨-g.maxCoord, -g.maxCoord, -g.maxCoord⟩).finite_toSet.subset fun P hP => (mem_boxCells e).2 hP.1
  obtain ⟨m1, m2⟩ := cells_measure f g.globalPos hstep
    (solid := solidCells g.maxCoord fun p => f.value (worldPos g.globalPos g.step p) ≤ 0)
    (touched := touchedCells g.maxCoord fun p => f.value (worldPos g.globalPos g.step p) ≤ 0) hfin
    (fun P hP => ⟨fun h => h.2, fun h => ⟨hP.1, h⟩⟩)
    (fun P hP => ⟨hP.1, P, by simp [cellVertices, shift], hP.2 P (by simp [cellVertices, shift])⟩) (fun P hP => hP.2)
    (fun x hx P hP => by
      by_cases hv : ∃ v ∈ cellVertices P, f.value (worldPos g.globalPos g.step v) ≤ 0
      · left
        refine ⟨?_, hv⟩
        rw [mem_cellBox] at hP
        have key : ∀ a, -g.maxCoord ≤ P.get a ∧ P.get a < g.maxCoord := by
          intro a
          obtain ⟨h1, h2⟩ := hin (point x) hx a
          obtain ⟨h3, h4⟩ := hP a
          constructor
          · by_contra hc
            have : (P.get a : ℝ) + 1 ≤ -(g.maxCoord : ℝ) := by exact_mod_cast (by omega : P.get a + 1 ≤ -g.maxCoord)
            nlinarith
          · by_contra hc
            have : (g.maxCoord : ℝ) ≤ (P.get a : ℝ) := by exact_mod_cast (by omega : g.maxCoord ≤ P.get a)
            nlinarith
        exact cellIn_iff.2 ⟨(key .X).1, (key .X).2, (key .Y).1, (key .Y).2, (key .Z).1, (key .Z).2⟩
      · push Not at hv
        exact Or.inr fun v hv' => not_le.2 (hv v hv'))
    (body_finite hbd g.step).1 (body_finite hbd g.step).2
  rw [abs_le]
  constructor <;> linarith

/-- C91 (worlds of chunks): the same for all the meshes of a world that is cut into chunks. -/
theorem C91_chunks {f : ScalarField ℝ} {sv : ZeroFinder ℝ} {nrm : Vec3 ℝ → Vec3 ℝ} {origin : Vec3 ℝ} {step : ℝ} {n : Nat}
    {chunks : List (Chunk ℝ)} (hf : ProperField f) (hstep : 0 < step) (hsv : StaysOnEdges f sv origin step)
    (hk : ∀ k ∈ chunks, k.Computed f sv nrm origin step n) (hd : (chunks.map Chunk.coord).Nodup)
    (hB : Bornology.IsBounded (Body f)) (hcov : BodyCovered f origin step n chunks) :
    |totalVolume chunks - bodyVolume f| ≤ layerVolume f step := by
  have hclear : ∀ P Q, CellCovered n chunks P → ¬ CellCovered n chunks Q → ∀ p ∈ cellVertices P, p ∈ cellVertices Q →
      0 < f.value (worldPos origin step p) := by
    intro P Q _ hQ p _ hpQ
    by_contra hc
    refine hQ (hcov _ (not_lt.1 hc) Q fun a => ?_)
    obtain ⟨h3, h4⟩ := cellVertices_get hpQ a
    have h3' : (Q.get a : ℝ) ≤ p.get a := Int.cast_le.2 h3
    have h4' : (p.get a : ℝ) ≤ Q.get a + 1 := by exact_mod_cast h4
    rw [worldPos_get]
    constructor <;> nlinarith
  obtain ⟨k1, k2⟩ := C89_volume hf hstep hsv hk hd hclear
  have hfin : (touchedCovered f origin step n chunks).Finite := by
    have hhalf : ∀ x ∈ chunks, (n : Int) = 2 * x.grid.half := fun x hx => by
      have hok := computed_ok hf (hk x hx)
      rw [← hok.size]; exact hok.filled.wf.half_eq
    exact (allCells n chunks).finite_toSet.subset fun P hP => (allCells_spec hhalf).2 hP.1
  obtain ⟨m1, m2⟩ := cells_measure f origin hstep
    (solid := solidCovered f origin step n chunks)
    (touched := touchedCovered f origin step n chunks) hfin
    (fun P hP => ⟨fun h => h.2, fun h => ⟨hP.1, h⟩⟩)
    (fun P hP => ⟨hP.1, P, by simp [cellVertices, shift], hP.2 P (by simp [cellVertices, shift])⟩) (fun P hP => hP.2)
    (fun x hx P hP => by
      by_cases hv : ∃ v ∈ cellVertices P, f.value (worldPos origin step v) ≤ 0
      · left
        refine ⟨hcov (point x) hx P fun a => ?_, hv⟩
        obtain ⟨h3, h4⟩ := mem_cellBox.1 hP a
        constructor <;> linarith
      · push Not at hv
        exact Or.inr fun v hv' => not_le.2 (hv v hv'))
    (body_finite hB step).1 (body_finite hB step).2
  rw [abs_le]
  constructor <;> linarith

/-- C91 (convergence): let the body be bounded and its surface have no volume.  For every tolerance there is a grid step from which on the meshes of
every world of chunks around the body - whatever its origin, the size of the chunks, the zero finder and the step - together enclose the volume of the
body up to the tolerance. -/
theorem C91_convergence {f : ScalarField ℝ} (hf : ProperField f) (hB : Bornology.IsBounded (Body f)) (h0 : volume (frontier (Body f)) = 0)
    {ε : ℝ} (hε : 0 < ε) : ∃ δ > 0, ∀ (sv : ZeroFinder ℝ) (nrm : Vec3 ℝ → Vec3 ℝ) (origin : Vec3 ℝ) (step : ℝ) (n : Nat) (chunks : List (Chunk ℝ)),
      0 < step → step < δ → StaysOnEdges f sv origin step → (∀ k ∈ chunks, k.Computed f sv nrm origin step n) →
      (chunks.map Chunk.coord).Nodup → BodyCovered f origin step n chunks → |totalVolume chunks - bodyVolume f| < ε := by
  have hc : IsCompact (frontier (Body f)) := Metric.isCompact_of_isClosed_isBounded isClosed_frontier (hB.closure.subset frontier_subset_closure)
  have ht := tendsto_measure_cthickening_of_isCompact (μ := volume) hc
  rw [h0] at ht
  have ev := ht.eventually (gt_mem_nhds (ENNReal.ofReal_pos.2 hε))
  obtain ⟨δ, hδ, hball⟩ := Metric.eventually_nhds_iff.1 ev
  refine ⟨δ, hδ, fun sv nrm origin step n chunks hs hlt hsv hk hd hcov => ?_⟩
  refine lt_of_le_of_lt (C91_chunks hf hs hsv hk hd hB hcov) ?_
  have := hball (y := step) (by rw [Real.dist_eq, sub_zero, abs_of_pos hs]; exact hlt)
  unfold layerVolume
  rw [← ENNReal.toReal_ofReal hε.le]
  exact (ENNReal.toReal_lt_toReal (body_finite hB step).2 ENNReal.ofReal_ne_top).2 this

theorem exists_computed (f : ScalarField ℝ) (hf : ProperField f) (sv : ZeroFinder ℝ) (nrm : Vec3 ℝ → Vec3 ℝ) (origin : Vec3 ℝ) (step : ℝ) {n : Nat}
    (hn : gridSizeCheck n = .ok ()) (c : IVec3) : ∃ k : Chunk ℝ, k.coord = c ∧ (n : Int) = 2 * k.grid.half ∧ k.Computed f sv nrm origin step n := by
  obtain ⟨g, hg, hs, hp, ht⟩ : ∃ g : Grid ℝ, Grid.mk' n (worldPos origin (((n : Int) : ℝ) * step) c) step = .ok g ∧ g.size = n ∧
      g.globalPos = worldPos origin (((n : Int) : ℝ) * step) c ∧ g.step = step := by
    unfold Grid.mk'
    rw [hn]
    exact ⟨_, rfl, rfl, rfl, rfl⟩
  have hr : g.Reachable := .mk hg
  obtain ⟨g', e, -⟩ := C06_fill_materials hr f sv
  obtain ⟨r, hres, -⟩ := C15_valid (C07_filled hr hf e) nrm
  have hk : Chunk.Computed f sv nrm origin step n ⟨c, g', r⟩ := ⟨g, hr, hs, ht, hp, e, hres⟩
  have hok := computed_ok hf hk
  exact ⟨⟨c, g', r⟩, rfl, by rw [← hok.size]; exact hok.filled.wf.half_eq, hk⟩

/-- C91 (coverings): for every bounded body, every origin, step and every size of chunks that the library accepts there are finitely many chunks
as C91_convergence wants them: one can always mesh finely enough. -/
theorem C91_cover {f : ScalarField ℝ} (hf : ProperField f) (sv : ZeroFinder ℝ) (nrm : Vec3 ℝ → Vec3 ℝ) (origin : Vec3 ℝ) {step : ℝ} (hstep : 0 < step)
    {n : Nat} (hn : gridSizeCheck n = .ok ()) (hB : Bornology.IsBounded (Body f)) :
    ∃ chunks : List (Chunk ℝ), (∀ k ∈ chunks, k.Computed f sv nrm origin step n) ∧ (chunks.map Chunk.coord).Nodup ∧
      BodyCovered f origin step n chunks := by
  choose K hc hh hk using exists_computed f hf sv nrm origin step hn
  obtain ⟨B, hBB⟩ : ∃ B : ℝ, ∀ q : Vec3 ℝ, f.value q ≤ 0 → ∀ a, |q.get a| ≤ B := by
    obtain ⟨B, hb⟩ := hB.subset_closedBall 0
    refine ⟨B, fun q hq a => ?_⟩
    have h0 : (![q.x, q.y, q.z] : Fin 3 → ℝ) ∈ Body f := hq
    have h1 := hb h0
    rw [Metric.mem_closedBall] at h1
    have h2 := fun i => (dist_le_pi_dist (![q.x, q.y, q.z] : Fin 3 → ℝ) 0 i).trans h1
    simp only [Real.dist_eq, Pi.zero_apply, sub_zero] at h2
    cases a
    · exact h2 0
    · exact h2 1
    · exact h2 2
  let R : ℝ := (|B| + |origin.x| + |origin.y| + |origin.z|) / step + 1
  let M : Nat := ⌈R⌉₊
  have hM : R ≤ M := Nat.le_ceil R
  have hnpos : 0 < n := by
    have := hh ⟨0, 0, 0⟩
    by_contra hc
    have : n = 0 := by omega
    subst this
    simp [gridSizeCheck] at hn
  let L : List IVec3 := (boxCells (2 * (M + 1)) ⟨-(M + 1 : Int), -(M + 1 : Int), -(M + 1 : Int)⟩).toList
  refine ⟨L.map K, ?_, ?_, ?_⟩
  · intro k hkm
    obtain ⟨c, -, rfl⟩ := List.mem_map.1 hkm
    exact hk c
  · rw [List.map_map]
    have : (Chunk.coord ∘ K) = id := funext hc
    rw [this, List.map_id]
    exact Finset.nodup_toList _
  · intro q hq P hP
    let h : Int := (K ⟨0, 0, 0⟩).grid.half
    have hnh : (n : Int) = 2 * h := hh _
    let c : IVec3 := ⟨(P.x + h) / n, (P.y + h) / n, (P.z + h) / n⟩
    have hn0 : (0 : Int) < n := by exact_mod_cast hnpos
    have dv : ∀ a : Int, -h ≤ a - n * ((a + h) / n) ∧ a - n * ((a + h) / n) < h := by
      intro a
      have e1 := Int.emod_add_mul_ediv (a + h) n
      have e2 := Int.emod_nonneg (a + h) hn0.ne'
      have e3 := Int.emod_lt_of_pos (a + h) hn0
      constructor <;> linarith
    have hPb : ∀ a, -(M : Int) ≤ P.get a ∧ P.get a ≤ M := by
      intro a
      obtain ⟨h1, h2⟩ := hP a
      have h3 := abs_le.1 ((hBB q hq a).trans (le_abs_self B))
      have h4 : |origin.get a| ≤ |origin.x| + |origin.y| + |origin.z| := by
        have := abs_nonneg origin.x
        have := abs_nonneg origin.y
        have := abs_nonneg origin.z
        cases a <;> simp only [Vec3.get] <;> linarith
      have h5 := abs_le.1 h4
      have hR : (R - 1) * step = |B| + |origin.x| + |origin.y| + |origin.z| := by
        simp only [R]
        field_simp
        ring
      constructor
      · have : (-(M : ℝ)) ≤ (P.get a : ℝ) := by
          by_contra hcon
          push Not at hcon
          nlinarith
        exact_mod_cast this
      · have : (P.get a : ℝ) ≤ (M : ℝ) := by
          by_contra hcon
          push Not at hcon
          nlinarith
        exact_mod_cast this
    have hcb : ∀ a : Int, -(M : Int) ≤ a → a ≤ M → -(M + 1 : Int) ≤ (a + h) / n ∧ (a + h) / n < M + 1 := by
      intro a h1 h2
      obtain ⟨d1, d2⟩ := dv a
      have hM0 : (0 : Int) ≤ M := Int.natCast_nonneg M
      constructor
      · by_contra hcon
        push Not at hcon
        nlinarith
      · by_contra hcon
        push Not at hcon
        nlinarith
    have hmem : K c ∈ L.map K := by
      refine List.mem_map_of_mem ?_
      simp only [L, Finset.mem_toList]
      have hb := (mem_boxCells (n := 2 * (M + 1)) (h := (M + 1 : Int)) (by push_cast; ring) (P := c)).2 (cellIn_iff.2
        ⟨(hcb _ (hPb .X).1 (hPb .X).2).1, (hcb _ (hPb .X).1 (hPb .X).2).2, (hcb _ (hPb .Y).1 (hPb .Y).2).1, (hcb _ (hPb .Y).1 (hPb .Y).2).2,
          (hcb _ (hPb .Z).1 (hPb .Z).2).1, (hcb _ (hPb .Z).1 (hPb .Z).2).2⟩)
      exact hb
    refine ⟨K c, hmem, ⟨P.x - n * c.x, P.y - n * c.y, P.z - n * c.z⟩, ?_, ?_⟩
    · have hm : (K c).grid.maxCoord = h := by
        have := hh c
        show (K c).grid.half = h
        omega
      rw [hm]
      exact cellIn_iff.2 ⟨(dv P.x).1, (dv P.x).2, (dv P.y).1, (dv P.y).2, (dv P.z).1, (dv P.z).2⟩
    · rw [hc]
      obtain ⟨x, y, z⟩ := P
      simp [chunkPoint, shift]

theorem boxField_body : Body boxField = Metric.closedBall 0 (3 / 2) := by
  ext x
  rw [Metric.mem_closedBall, dist_pi_le_iff (by norm_num)]
  simp only [Body, boxField, point, mem_setOf_eq, sub_nonpos, max_le_iff, Real.dist_eq, Pi.zero_apply, sub_zero]
  constructor
  · rintro ⟨⟨h1, h2⟩, h3⟩ i
    fin_cases i
    · exact h1
    · exact h2
    · exact h3
  · exact fun h => ⟨⟨h 0, h 1⟩, h 2⟩

/-- Non-vacuity of C91: the cube of side 3 is bounded, its surface has no volume, its volume is 27; it lies strictly inside a grid of `4^3` cells;
and for every tolerance it can be meshed in chunks of 16 cells per side so that the volume of all meshes is 27 up to the tolerance. -/
example : Bornology.IsBounded (Body boxField) ∧ volume (frontier (Body boxField)) = 0 ∧ bodyVolume boxField = 27 ∧
    (∃ g : Grid ℝ, g.Reachable ∧ 0 < g.step ∧ BodyInGrid boxField g) ∧
    ∀ ε > 0, ∃ (step : ℝ) (chunks : List (Chunk ℝ)), (∀ k ∈ chunks, k.Computed boxField (bisectionFinder 4) id ⟨0, 0, 0⟩ step 16) ∧
      |totalVolume chunks - 27| < ε := by
  have hb : Bornology.IsBounded (Body boxField) := by rw [boxField_body]; exact Metric.isBounded_closedBall
  have h0 : volume (frontier (Body boxField)) = 0 := by
    rw [boxField_body]
    exact (convex_closedBall (0 : Fin 3 → ℝ) (3 / 2)).addHaar_frontier volume
  have hv : bodyVolume boxField = 27 := by
    unfold bodyVolume
    rw [boxField_body, Real.volume_pi_closedBall 0 (by norm_num)]
    rw [ENNReal.toReal_ofReal (by positivity)]
    norm_num
  have hprop : ProperField boxField := by intro q _; simp [boxField]
  refine ⟨hb, h0, hv, ?_, fun ε hε => ?_⟩
  · obtain ⟨g, e, hp, hs, hm⟩ : ∃ g, Grid.mk' 4 (⟨0, 0, 0⟩ : Vec3 ℝ) 1 = .ok g ∧ g.globalPos = ⟨0, 0, 0⟩ ∧ g.step = 1 ∧ g.maxCoord = 2 :=
      ⟨_, rfl, rfl, rfl, rfl⟩
    refine ⟨g, .mk e, by rw [hs]; exact one_pos, fun q hq a => ?_⟩
    rw [hp, hs, hm]
    simp only [boxField, sub_nonpos, max_le_iff] at hq
    have : |q.get a| ≤ 3 / 2 := by cases a <;> simp only [Vec3.get] <;> tauto
    have := abs_le.1 this
    have e0 : (⟨0, 0, 0⟩ : Vec3 ℝ).get a = 0 := by cases a <;> rfl
    rw [e0]
    push_cast
    constructor <;> linarith
  · obtain ⟨δ, hδ, hconv⟩ := C91_convergence hprop hb h0 hε
    have hs : 0 < δ / 2 := by linarith
    obtain ⟨chunks, h1, h2, h3⟩ := C91_cover hprop (bisectionFinder 4) id ⟨0, 0, 0⟩ hs (n := 16) rfl hb
    refine ⟨δ / 2, chunks, h1, ?_⟩
    have := hconv _ id _ _ 16 chunks hs (by linarith) (C69_solvers boxField 0 4 ⟨0, 0, 0⟩ hs).1 h1 h2 h3
    rwa [hv] at this

end Isomesh
