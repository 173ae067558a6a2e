import Verif.Spec.Hausdorff
import Verif.Props.Embedded
import Verif.Props.Convergence

/-! C92: the mesh converges to the surface of the body. -/

namespace Isomesh
open Spec Set

variable {f : ScalarField ℝ} {sv : ZeroFinder ℝ} {nrm : Vec3 ℝ → Vec3 ℝ} {origin : Vec3 ℝ} {step : ℝ} {n : Nat}

theorem slotEdge_mem {P : IVec3} {i : Nat} (hi : i < 12) :
    (slotEdge P i).at_ ∈ cellVertices P ∧ edgeEnd (slotEdge P i).axis (slotEdge P i).at_ ∈ cellVertices P := by
  obtain ⟨h1, h2⟩ := slotEdge_ends P i hi
  rw [h2, h1]
  have key : ∀ c, c < 8 → shift P (cornerPos c).x (cornerPos c).y (cornerPos c).z ∈ cellVertices P := by
    intro c hc
    interval_cases c <;> simp [cellVertices, cornerPos, shift]
  constructor
  · apply key
    interval_cases i <;> decide
  · apply key
    interval_cases i <;> decide

/-- The vertices of a chunk's triangle are on crossed edges of one cell. -/
theorem chunk_triangle_cell (hf : ProperField f) (hstep : 0 < step) (hsv : StaysOnEdges f sv origin step) {k : Chunk ℝ}
    (hk : k.Computed f sv nrm origin step n) {t : Nat × Nat × Nat} (ht : t ∈ triangles k.result.mesh.indices) :
    ∃ P, (∃ u ∈ cellVertices P, ∃ v ∈ cellVertices P, f.value (worldPos origin step u) ≤ 0 ∧ 0 < f.value (worldPos origin step v)) ∧
      ∀ i ∈ corners t, InClosedCell origin step P (worldVertex k.result i) := by
  obtain ⟨hlt, P, -, hT⟩ := chunk_triangle hf hk ht
  obtain ⟨A, hA, e⟩ := List.mem_map.1 hT
  rw [Prod.mk.injEq, Prod.mk.injEq] at e
  obtain ⟨e1, e2, e3⟩ := e
  obtain ⟨l1, l2, l3⟩ := tri_lt (latMask_lt _ P) hA
  have hlen : k.result.mesh.vertices.length = (edgeList k.grid).length := by
    have hok := computed_ok hf hk
    have hr := hok.result
    rw [mc_result hok.filled, Option.some.injEq] at hr
    rw [← hr, List.length_map]
  have key : ∀ v i, v < (edgeList k.grid).length → i < 12 → slotEdge P i = chunkEdge n k.coord (vertexEdge k.grid v) →
      Crosses f (worldPos origin step) (slotEdge P i).axis (slotEdge P i).at_ ∧ InClosedCell origin step P (worldVertex k.result v) := by
    intro v i hv hi hE
    have ha := List.getElem?_eq_getElem (hlen.symm ▸ hv : v < k.result.mesh.vertices.length)
    obtain ⟨e, he, hc, hp, -⟩ := C76_same_vertex hf hk hstep.ne' ha
    have hEe : vertexEdge k.grid v = .ofGridEdge e := by unfold vertexEdge; rw [he]
    rw [hEe] at hE
    rw [← hE] at hc hp
    refine ⟨hc, ?_⟩
    have hw : worldVertex k.result v = (worldPos origin step (slotEdge P i).at_).set (slotEdge P i).axis
        (crossingCoord f sv (worldPos origin step) (slotEdge P i).axis (slotEdge P i).at_) := by
      unfold worldVertex vertexPos
      rw [ha]
      exact hp
    obtain ⟨s1, s2⟩ := hsv _ _ hc
    obtain ⟨m1, m2⟩ := slotEdge_mem (P := P) hi
    intro a
    rw [hw, vec3_get_set]
    obtain ⟨b1, b2⟩ := cellVertices_get m1 a
    obtain ⟨b3, b4⟩ := cellVertices_get m2 a
    have b1' : (P.get a : ℝ) ≤ ((slotEdge P i).at_.get a : ℝ) := by exact_mod_cast b1
    have b2' : ((slotEdge P i).at_.get a : ℝ) ≤ P.get a + 1 := by exact_mod_cast b2
    have b4' : ((edgeEnd (slotEdge P i).axis (slotEdge P i).at_).get a : ℝ) ≤ P.get a + 1 := by exact_mod_cast b4
    split_ifs with hax
    · subst hax
      rw [worldPos_get] at s1 s2
      constructor <;> nlinarith
    · rw [worldPos_get]
      constructor <;> nlinarith
  have k1 := key t.1 A.1 (hlt _ (mem_corners.2 (Or.inl rfl))) l1 e1
  have k2 := key t.2.1 A.2.1 (hlt _ (mem_corners.2 (Or.inr (Or.inl rfl)))) l2 e2
  have k3 := key t.2.2 A.2.2 (hlt _ (mem_corners.2 (Or.inr (Or.inr rfl)))) l3 e3
  refine ⟨P, ?_, fun i hi => ?_⟩
  · obtain ⟨m1, m2⟩ := slotEdge_mem (P := P) l1
    have hc := k1.1
    unfold Crosses at hc
    by_cases h0 : f.value (worldPos origin step (slotEdge P A.1).at_) ≤ 0
    · refine ⟨_, m1, _, m2, h0, ?_⟩
      by_contra h1
      exact hc ⟨fun _ => not_lt.1 h1, fun _ => h0⟩
    · refine ⟨_, m2, _, m1, ?_, not_le.1 h0⟩
      by_contra h1
      exact hc ⟨fun h => (h0 h).elim, fun h => (h1 h).elim⟩
  · rcases mem_corners.1 hi with rfl | rfl | rfl
    · exact k1.2
    · exact k2.2
    · exact k3.2

/-- Points of a cell with corners on both sides are near the surface. -/
theorem mixed_cell_near (hstep : 0 < step) {P : IVec3} {u v : IVec3} (hu : u ∈ cellVertices P) (hv : v ∈ cellVertices P)
    (h0 : f.value (worldPos origin step u) ≤ 0) (h1 : 0 < f.value (worldPos origin step v)) {x : Fin 3 → ℝ}
    (hx : InClosedCell origin step P (point x)) : ∃ z ∈ Surface f, dist x z ≤ step := by
  have hd : ∀ w ∈ cellVertices P, gridPoint origin step w ∈ Metric.closedBall x step := by
    intro w hw
    have key : ∀ a, |(worldPos origin step w).get a - (point x).get a| ≤ step := by
      intro a
      obtain ⟨a1, a2⟩ := hx a
      obtain ⟨b1, b2⟩ := cellVertices_get hw a
      have b1' : (P.get a : ℝ) ≤ (w.get a : ℝ) := by exact_mod_cast b1
      have b2' : (w.get a : ℝ) ≤ P.get a + 1 := by exact_mod_cast b2
      rw [worldPos_get, abs_le]
      constructor <;> nlinarith
    rw [Metric.mem_closedBall, dist_pi_le_iff hstep.le]
    intro i
    rw [Real.dist_eq]
    fin_cases i
    · exact key .X
    · exact key .Y
    · exact key .Z
  obtain ⟨z, hz, hzf⟩ := meets_frontier (s := Body f) (convex_segment (gridPoint origin step u) (gridPoint origin step v)).isPreconnected
    (left_mem_segment ℝ _ _) (right_mem_segment ℝ _ _) h0 (fun h => absurd h (not_le.2 h1))
  refine ⟨z, hzf, ?_⟩
  have := (convex_closedBall x step).segment_subset (hd u hu) (hd v hv) hz
  rw [Metric.mem_closedBall, dist_comm] at this
  exact this

/-- C92 (the mesh is near the surface): every point of every triangle of the meshes of a world differs from some point of the body's surface by at most
one grid step in each coordinate. -/
theorem C92_near (hf : ProperField f) (hstep : 0 < step) (hsv : StaysOnEdges f sv origin step) {chunks : List (Chunk ℝ)}
    (hk : ∀ k ∈ chunks, k.Computed f sv nrm origin step n) {x : Fin 3 → ℝ} (hx : x ∈ meshPoints chunks) :
    ∃ z ∈ Surface f, dist x z ≤ step := by
  obtain ⟨k, hkm, t, ht, hin⟩ := hx
  obtain ⟨P, ⟨u, hu, v, hv, h0, h1⟩, hcell⟩ := chunk_triangle_cell hf hstep hsv (hk k hkm) ht
  refine mixed_cell_near hstep hu hv h0 h1 fun a => ?_
  obtain ⟨va, vb, vc, ga, gb, gc, hin⟩ := hin
  have wv : ∀ {i v}, k.result.mesh.vertices[i]? = some v → worldVertex k.result i = meshToWorld k.result v.position := by
    intro i v hv
    unfold worldVertex vertexPos
    rw [hv]
    rfl
  have a1 := hcell t.1 (mem_corners.2 (Or.inl rfl)) a
  have a2 := hcell t.2.1 (mem_corners.2 (Or.inr (Or.inl rfl))) a
  have a3 := hcell t.2.2 (mem_corners.2 (Or.inr (Or.inr rfl))) a
  rw [wv ga] at a1
  rw [wv gb] at a2
  rw [wv gc] at a3
  generalize meshToWorld k.result va.position = A at a1 hin
  generalize meshToWorld k.result vb.position = B at a2 hin
  generalize meshToWorld k.result vc.position = C at a3 hin
  obtain ⟨x1, x2, x3, w1, w2, w3, hs, hq⟩ := hin
  have e : (point x).get a = x1 * A.get a + x2 * B.get a + x3 * C.get a := by
    rw [hq]
    cases a <;> rfl
  rw [e]
  obtain ⟨lo, hlo⟩ : ∃ lo, lo = (P.get a : ℝ) * step + origin.get a := ⟨_, rfl⟩
  obtain ⟨hi, hhi⟩ : ∃ hi, hi = ((P.get a : ℝ) + 1) * step + origin.get a := ⟨_, rfl⟩
  rw [← hlo, ← hhi] at a1 a2 a3 ⊢
  have hx3 : x3 = 1 - x1 - x2 := by linarith
  subst hx3
  constructor
  · nlinarith [mul_nonneg w1 (sub_nonneg.2 a1.1), mul_nonneg w2 (sub_nonneg.2 a2.1), mul_nonneg w3 (sub_nonneg.2 a3.1)]
  · nlinarith [mul_nonneg w1 (sub_nonneg.2 a1.2), mul_nonneg w2 (sub_nonneg.2 a2.2), mul_nonneg w3 (sub_nonneg.2 a3.2)]

/-- A crossed edge of the lattice carries a point of the meshes. -/
theorem crossed_edge_point (hf : ProperField f) (hstep : 0 < step) (hsv : StaysOnEdges f sv origin step) {chunks : List (Chunk ℝ)}
    (hk : ∀ k ∈ chunks, k.Computed f sv nrm origin step n) (hcov : BodyCovered f origin step n chunks) {D : Axis} {e : IVec3}
    (hc : Crosses f (worldPos origin step) D e) : ∃ x ∈ meshPoints chunks, OnGridEdge origin step D e (point x) := by
  have hends : ∀ u, (u = e ∨ u = edgeEnd D e) → InClosedCell origin step e (worldPos origin step u) := by
    intro u hu a
    have h1 : e.get a ≤ u.get a ∧ u.get a ≤ e.get a + 1 := by
      rcases hu with rfl | rfl
      · omega
      · rw [edgeEnd_get]
        split_ifs <;> omega
    have b1' : (e.get a : ℝ) ≤ (u.get a : ℝ) := by exact_mod_cast h1.1
    have b2' : (u.get a : ℝ) ≤ e.get a + 1 := by exact_mod_cast h1.2
    rw [worldPos_get]
    constructor <;> nlinarith
  have hcell : CellCovered n chunks e := by
    by_cases h0 : f.value (worldPos origin step e) ≤ 0
    · exact hcov _ h0 e (hends e (Or.inl rfl))
    · refine hcov (worldPos origin step (edgeEnd D e)) ?_ e (hends _ (Or.inr rfl))
      by_contra h1
      exact hc ⟨fun h => (h0 h).elim, fun h => (h1 h).elim⟩
  obtain ⟨k, hkm, Q, hQ, rfl⟩ := hcell
  obtain ⟨g, hg, hsz, hst, hpos, hfill, hres⟩ := hk k hkm
  have hfun : worldPos g.globalPos g.step = fun p => worldPos origin step (chunkPoint n k.coord p) := by
    funext p
    rw [hpos, hst, worldPos_chunk]
  have hcr : ∀ D p, Crosses f (worldPos g.globalPos g.step) D p ↔ Crosses f (worldPos origin step) D (chunkPoint n k.coord p) := by
    intro D p
    unfold Crosses
    rw [hfun]
    dsimp only
    rw [chunk_edgeEnd]
  have hco : ∀ D p, crossingCoord f sv (worldPos g.globalPos g.step) D p = crossingCoord f sv (worldPos origin step) D (chunkPoint n k.coord p) := by
    intro D p
    unfold crossingCoord
    rw [hfun]
    dsimp only
    rw [chunk_edgeEnd]
  have hsv' : StaysOnEdges f sv g.globalPos g.step := by
    intro D p hc
    rw [hco]
    have := hsv D _ ((hcr D p).1 hc)
    rw [hfun]
    dsimp only
    rw [chunk_edgeEnd]
    exact this
  have hmax : k.grid.maxCoord = g.maxCoord := by
    obtain ⟨g'', hf2, ⟨-, hh, -, -⟩, -⟩ := C06_fill_materials hg f sv
    rw [hfill] at hf2; cases hf2
    exact hh
  rw [hmax] at hQ
  obtain ⟨i, v, ⟨t, ht, hi⟩, hv, s, s0, s1, hs⟩ := mc_edge_vertex hg (by rw [hst]; exact hstep) hf hsv' hfill nrm hres ((hcr D Q).2 hc)
    (hQ Q (by simp [cellVertices, shift])) (hQ _ (by cases D <;> simp [cellVertices, edgeEnd, shift]))
  obtain ⟨q, hq⟩ : ∃ q, q = meshToWorld k.result v.position := ⟨_, rfl⟩
  refine ⟨![q.x, q.y, q.z], ⟨k, hkm, t, ht, ?_⟩, s, s0, s1, ?_⟩
  · have hval : ∀ j, (j = t.1 ∨ j = t.2.1 ∨ j = t.2.2) → ∃ w, k.result.mesh.vertices[j]? = some w := by
      intro j hj
      have hlt := (chunk_triangle hf (hk k hkm) ht).1 j (mem_corners.2 hj)
      have hok := computed_ok hf (hk k hkm)
      have hr := hok.result
      rw [mc_result hok.filled, Option.some.injEq] at hr
      have hlen : k.result.mesh.vertices.length = (edgeList k.grid).length := by rw [← hr, List.length_map]
      exact ⟨_, List.getElem?_eq_getElem (hlen.symm ▸ hlt)⟩
    obtain ⟨a, ha⟩ := hval t.1 (Or.inl rfl)
    obtain ⟨b, hb⟩ := hval t.2.1 (Or.inr (Or.inl rfl))
    obtain ⟨c, hc⟩ := hval t.2.2 (Or.inr (Or.inr rfl))
    refine ⟨a, b, c, ha, hb, hc, ?_⟩
    have hpt : point ![q.x, q.y, q.z] = q := rfl
    rw [hpt, hq]
    rcases hi with rfl | rfl | rfl
    · rw [ha, Option.some.injEq] at hv
      subst hv
      exact ⟨1, 0, 0, by norm_num, le_rfl, le_rfl, by norm_num, by simp⟩
    · rw [hb, Option.some.injEq] at hv
      subst hv
      exact ⟨0, 1, 0, le_rfl, by norm_num, le_rfl, by norm_num, by simp⟩
    · rw [hc, Option.some.injEq] at hv
      subst hv
      exact ⟨0, 0, 1, le_rfl, le_rfl, by norm_num, by norm_num, by simp⟩
  · have hpt : point ![q.x, q.y, q.z] = q := rfl
    rw [hpt, hq, hs, hfun, hst]

/-- A lattice point within one step in each coordinate. -/
theorem lattice_near (origin : Vec3 ℝ) (hstep : 0 < step) (x : Fin 3 → ℝ) : ∃ p, dist (gridPoint origin step p) x ≤ step := by
  obtain ⟨P, hP⟩ := exists_cellBox origin hstep x
  exact ⟨P, by rw [dist_comm]; exact cell_dist hstep hP (by simp [cellVertices, shift])⟩

/-- Between an inner and an outer point the meshes have a point. -/
theorem mesh_between (hf : ProperField f) (hstep : 0 < step) (hsv : StaysOnEdges f sv origin step) {chunks : List (Chunk ℝ)}
    (hk : ∀ k ∈ chunks, k.Computed f sv nrm origin step n) (hcov : BodyCovered f origin step n chunks) {z a b : Fin 3 → ℝ} {r : ℝ}
    (ha : dist a z ≤ r) (hb : dist b z ≤ r) (hsol : ∀ x, dist x a ≤ step → x ∈ Body f) (hemp : ∀ x, dist x b ≤ step → x ∉ Body f) :
    ∃ x ∈ meshPoints chunks, dist x z ≤ r + step := by
  obtain ⟨p, hp⟩ := lattice_near origin hstep a
  obtain ⟨q, hq⟩ := lattice_near origin hstep b
  have sp : f.value (worldPos origin step p) ≤ 0 := hsol _ hp
  have sq : ¬ f.value (worldPos origin step q) ≤ 0 := hemp _ hq
  obtain ⟨D, e, he, hbox⟩ := box_change (fun p => decide (f.value (worldPos origin step p) ≤ 0)) (p := p) (q := q) (by simp [sp, sq])
  have hcr : Crosses f (worldPos origin step) D e := by
    unfold Crosses
    simpa using he
  obtain ⟨x, hx, s, s0, s1, hs⟩ := crossed_edge_point hf hstep hsv hk hcov hcr
  refine ⟨x, hx, ?_⟩
  have hr : 0 ≤ r := dist_nonneg.trans ha
  have near : ∀ {w c : Fin 3 → ℝ}, dist w c ≤ r + step → ∀ A, |(point w).get A - (point c).get A| ≤ r + step := by
    intro w c hw A
    have h2 := fun i => (dist_le_pi_dist w c i).trans hw
    simp only [Real.dist_eq] at h2
    cases A
    · exact h2 0
    · exact h2 1
    · exact h2 2
  have np := near (w := gridPoint origin step p) (c := z) ((dist_triangle _ a _).trans (by linarith))
  have nq := near (w := gridPoint origin step q) (c := z) ((dist_triangle _ b _).trans (by linarith))
  have key : ∀ A, |(point x).get A - (point z).get A| ≤ r + step := by
    intro A
    have p1 := abs_le.1 (np A)
    have q1 := abs_le.1 (nq A)
    rw [point_gridPoint, worldPos_get] at p1 q1
    obtain ⟨b1, b2⟩ := hbox A
    have hval : ((e.get A : ℝ)) * step + origin.get A ≤ (point x).get A ∧
        (point x).get A ≤ ((edgeEnd D e).get A : ℝ) * step + origin.get A := by
      rw [hs, vec3_get_set, edgeEnd_get]
      split_ifs with hA
      · subst hA
        rw [worldPos_get]
        push_cast
        constructor <;> nlinarith
      · rw [worldPos_get]
        push_cast
        constructor <;> linarith
    have lo : min ((p.get A : ℝ) * step + origin.get A) ((q.get A : ℝ) * step + origin.get A) ≤ (e.get A : ℝ) * step + origin.get A := by
      rcases le_total (p.get A) (q.get A) with h | h
      · rw [min_eq_left h] at b1
        refine (min_le_left _ _).trans ?_
        have : (p.get A : ℝ) ≤ e.get A := by exact_mod_cast b1
        nlinarith
      · rw [min_eq_right h] at b1
        refine (min_le_right _ _).trans ?_
        have : (q.get A : ℝ) ≤ e.get A := by exact_mod_cast b1
        nlinarith
    have hi : ((edgeEnd D e).get A : ℝ) * step + origin.get A ≤ max ((p.get A : ℝ) * step + origin.get A) ((q.get A : ℝ) * step + origin.get A) := by
      rcases le_total (p.get A) (q.get A) with h | h
      · rw [max_eq_right h] at b2
        refine le_trans ?_ (le_max_right _ _)
        have : ((edgeEnd D e).get A : ℝ) ≤ q.get A := by exact_mod_cast b2
        nlinarith
      · rw [max_eq_left h] at b2
        refine le_trans ?_ (le_max_left _ _)
        have : ((edgeEnd D e).get A : ℝ) ≤ p.get A := by exact_mod_cast b2
        nlinarith
    rw [abs_le]
    constructor
    · rcases min_le_iff.1 lo with h | h <;> linarith [hval.1]
    · rcases le_max_iff.1 hi with h | h <;> linarith [hval.2]
  rw [dist_pi_le_iff (by linarith)]
  intro i
  rw [Real.dist_eq]
  fin_cases i
  · exact key .X
  · exact key .Y
  · exact key .Z

/-- C92 (convergence): let the body be bounded and have no parts of thickness zero.  For every tolerance there is a grid step from which on the meshes of
every world of chunks around the body lie in the layer of this tolerance around the surface, and every point of the surface has a point of a mesh
within the tolerance. -/
theorem C92_convergence (hf : ProperField f) (hB : Bornology.IsBounded (Body f)) (hT : ThickBody f) {ε : ℝ} (hε : 0 < ε) :
    ∃ δ > 0, ∀ (sv : ZeroFinder ℝ) (nrm : Vec3 ℝ → Vec3 ℝ) (origin : Vec3 ℝ) (step : ℝ) (n : Nat) (chunks : List (Chunk ℝ)),
      0 < step → step < δ → StaysOnEdges f sv origin step → (∀ k ∈ chunks, k.Computed f sv nrm origin step n) →
      BodyCovered f origin step n chunks →
      (∀ x ∈ meshPoints chunks, ∃ z ∈ Surface f, dist x z < ε) ∧ ∀ z ∈ Surface f, ∃ x ∈ meshPoints chunks, dist x z < ε := by
  have hc : IsCompact (Surface f) := Metric.isCompact_of_isClosed_isBounded isClosed_frontier (hB.closure.subset frontier_subset_closure)
  have hloc : ∀ z ∈ Surface f, ∃ δ > 0, ∀ step, step < δ → ∃ a b, dist a z ≤ ε / 4 ∧ dist b z ≤ ε / 4 ∧
      (∀ x, dist x a ≤ step → x ∈ Body f) ∧ ∀ x, dist x b ≤ step → x ∉ Body f := by
    intro z hz
    obtain ⟨a, ha, hda⟩ := Metric.mem_closure_iff.1 (hT.1 hz) (ε / 4) (by linarith)
    obtain ⟨b, hb, hdb⟩ := Metric.mem_closure_iff.1 (hT.2 hz) (ε / 4) (by linarith)
    obtain ⟨ra, ra0, hra⟩ := Metric.isOpen_iff.1 isOpen_interior a ha
    obtain ⟨rb, rb0, hrb⟩ := Metric.isOpen_iff.1 isOpen_interior b hb
    refine ⟨min ra rb, lt_min ra0 rb0, fun step hs => ⟨a, b, by rw [dist_comm]; exact hda.le, by rw [dist_comm]; exact hdb.le, fun x hx => ?_, fun x hx => ?_⟩⟩
    · exact interior_subset (hra (Metric.mem_ball.2 (lt_of_le_of_lt hx (hs.trans_le (min_le_left _ _)))))
    · exact interior_subset (hrb (Metric.mem_ball.2 (lt_of_le_of_lt hx (hs.trans_le (min_le_right _ _)))))
  choose! δ hδ hab using hloc
  obtain ⟨T, hTs, hTc⟩ := hc.elim_nhds_subcover (fun z => Metric.ball z (ε / 4)) fun z _ => Metric.ball_mem_nhds z (by linarith)
  obtain ⟨d, hd, hdT⟩ : ∃ d > 0, ∀ z ∈ T, d ≤ δ z := by
    clear hTc
    induction T using Finset.induction_on with
    | empty => exact ⟨1, one_pos, by simp⟩
    | insert z T _ ih =>
      obtain ⟨d, hd, hdT⟩ := ih fun z hz => hTs z (Finset.mem_insert_of_mem hz)
      refine ⟨min d (δ z), lt_min hd (hδ z (hTs z (Finset.mem_insert_self z T))), fun w hw => ?_⟩
      rcases Finset.mem_insert.1 hw with rfl | hw
      · exact min_le_right _ _
      · exact (min_le_left _ _).trans (hdT w hw)
  refine ⟨min d (ε / 4), lt_min hd (by linarith), fun sv nrm origin step n chunks hs hlt hsv hk hcov => ⟨fun x hx => ?_, fun z hz => ?_⟩⟩
  · obtain ⟨z, hz, hxz⟩ := C92_near hf hs hsv hk hx
    exact ⟨z, hz, by linarith [hlt.trans_le (min_le_right d (ε / 4))]⟩
  · obtain ⟨w, hw, hzw⟩ := mem_iUnion₂.1 (hTc hz)
    obtain ⟨a, b, h1, h2, h3, h4⟩ := hab w (hTs w hw) step (hlt.trans_le ((min_le_left _ _).trans (hdT w hw)))
    obtain ⟨x, hx, hxw⟩ := mesh_between hf hs hsv hk hcov h1 h2 h3 h4
    refine ⟨x, hx, ?_⟩
    have := dist_triangle x w z
    rw [Metric.mem_ball, dist_comm] at hzw
    linarith [hlt.trans_le (min_le_right d (ε / 4))]

/-- Non-vacuity of C92: the cube of side 3 is such a body, its surface is not empty, and for every tolerance it can be meshed in chunks of 16 cells per
side so that the meshes are that near to the surface and the surface is that near to the meshes. -/
example : Bornology.IsBounded (Body boxField) ∧ ThickBody boxField ∧ (Surface boxField).Nonempty ∧
    ∀ ε > 0, ∃ (step : ℝ) (chunks : List (Chunk ℝ)), (∀ k ∈ chunks, k.Computed boxField (bisectionFinder 4) id ⟨0, 0, 0⟩ step 16) ∧
      (∀ x ∈ meshPoints chunks, ∃ z ∈ Surface boxField, dist x z < ε) ∧ ∀ z ∈ Surface boxField, ∃ x ∈ meshPoints chunks, dist x z < ε := by
  have hb : Bornology.IsBounded (Body boxField) := by rw [boxField_body]; exact Metric.isBounded_closedBall
  have hprop : ProperField boxField := by intro q _; simp [boxField]
  have hT : ThickBody boxField := by
    unfold ThickBody Surface
    rw [boxField_body]
    constructor
    · rw [interior_closedBall _ (by norm_num), closure_ball _ (by norm_num)]
      exact Metric.isClosed_closedBall.frontier_subset
    · rw [interior_compl, Metric.isClosed_closedBall.closure_eq, ← frontier_compl]
      exact frontier_subset_closure
  refine ⟨hb, hT, ?_, fun ε hε => ?_⟩
  · unfold Surface
    rw [boxField_body, frontier_closedBall _ (by norm_num)]
    refine ⟨fun _ => 3 / 2, ?_⟩
    rw [mem_sphere_zero_iff_norm, pi_norm_const]
    norm_num
  · obtain ⟨δ, hδ, hconv⟩ := C92_convergence hprop hb hT hε
    have hs : 0 < δ / 2 := by linarith
    obtain ⟨chunks, h1, h2, h3⟩ := C91_cover hprop (bisectionFinder 4) id ⟨0, 0, 0⟩ hs (n := 16) rfl hb
    exact ⟨δ / 2, chunks, h1, hconv _ id _ _ 16 chunks hs (by linarith) (C69_solvers boxField 0 4 ⟨0, 0, 0⟩ hs).1 h1 h3⟩

end Isomesh
