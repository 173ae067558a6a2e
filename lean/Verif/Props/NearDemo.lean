import Verif.Props.Near
import Verif.Props.FlatDemo

/-! C98: the hypotheses are met. -/

namespace Isomesh
open Spec Finset Matrix

section
variable {d : Nat} {M bits : Nat} {tiny : ℝ}

/-- Solvers with the same rows. -/
def SameRows (q q' : Qef ℝ d) : Prop := q.A = q'.A ∧ q.usedRows = q'.usedRows

theorem same_compress {q q' q1 : Qef ℝ d} (h : SameRows q q') (hc : q.compressMatrix M tiny = some q1) :
    ∃ q1', q'.compressMatrix M tiny = some q1' ∧ SameRows q1 q1' := by
  unfold Qef.compressMatrix at hc ⊢
  rw [← h.1, ← h.2]
  cases e : householder M tiny q.usedRows q.A with
  | none => rw [e] at hc; cases hc
  | some A =>
    rw [e] at hc
    simp only [Option.bind_eq_bind, Option.bind_some, Option.some.injEq] at hc ⊢
    subst hc
    exact ⟨_, rfl, rfl, rfl⟩

theorem same_add {q q' q1 : Qef ℝ d} (h : SameRows q q') {pt n : VecN ℝ d} (hc : q.addPlane M tiny pt n = some q1) :
    ∃ q1', q'.addPlane M tiny pt n = some q1' ∧ SameRows q1 q1' := by
  have key : ∀ a a' : Qef ℝ d, SameRows a a' → ∀ b, (do
      let A ← Qef.writeRow M a.A a.usedRows (Fin.snoc (α := fun _ => ℝ) n (dotN n pt))
      some { a with A := A, usedRows := a.usedRows + 1, pointsSum := a.pointsSum + pt, pointsCount := u32 (a.pointsCount + 1) }) = some b →
      ∃ b', (do
      let A ← Qef.writeRow M a'.A a'.usedRows (Fin.snoc (α := fun _ => ℝ) n (dotN n pt))
      some { a' with A := A, usedRows := a'.usedRows + 1, pointsSum := a'.pointsSum + pt, pointsCount := u32 (a'.pointsCount + 1) }) = some b' ∧
      SameRows b b' := by
    intro a a' hs b hb
    rw [← hs.1, ← hs.2]
    cases e : Qef.writeRow M a.A a.usedRows (Fin.snoc (α := fun _ => ℝ) n (dotN n pt)) with
    | none => rw [e] at hb; cases hb
    | some A =>
      rw [e] at hb
      simp only [Option.bind_eq_bind, Option.bind_some, Option.some.injEq] at hb ⊢
      subst hb
      exact ⟨_, rfl, rfl, by rw [hs.2]⟩
  unfold Qef.addPlane Qef.roomForPlane at hc ⊢
  rw [← h.2]
  split at hc
  · rename_i hM
    cases e : q.compressMatrix M tiny with
    | none => rw [e] at hc; cases hc
    | some a =>
      obtain ⟨a', e', hs⟩ := same_compress h e
      rw [e] at hc
      rw [if_pos hM, e']
      simp only [Option.bind_eq_bind, Option.bind_some] at hc ⊢
      exact key a a' hs q1 hc
  · rename_i hM
    rw [if_neg hM]
    simp only [Option.bind_eq_bind, Option.bind_some] at hc ⊢
    exact key q q' h q1 hc

/-- Whether planes are added cleanly depends on the rows only. -/
theorem same_clean (l : List (VecN ℝ (d + 2) × VecN ℝ (d + 2))) : ∀ q q' : Qef ℝ (d + 2), SameRows q q' →
    CleanRun M bits tiny q ((l.map fun a => .addPlane a.1 a.2) ++ [.state]) → CleanRun M bits tiny q' ((l.map fun a => .addPlane a.1 a.2) ++ [.state]) := by
  have hcc : ∀ q q' : Qef ℝ (d + 2), SameRows q q' → CompressClean tiny q → CompressClean tiny q' := by
    intro q q' h hc
    unfold CompressClean at hc ⊢
    rw [← h.1, ← h.2]; exact hc
  have hsym : ∀ q q' : Qef ℝ (d + 2), SameRows q q' → SameRows q' q := fun q q' h => ⟨h.1.symm, h.2.symm⟩
  induction l with
  | nil =>
    intro q q' h hc
    exact ⟨hcc q q' h hc.1, fun _ _ => trivial⟩
  | cons a l ih =>
    intro q q' h hc
    refine ⟨fun hM => hcc q q' h (hc.1 (h.2.trans hM)), fun q1' h1' => ?_⟩
    obtain ⟨q1, h1, hs⟩ := same_add (hsym q q' h) h1'
    exact ih q1 q1' (hsym _ _ hs) (hc.2 q1 h1)

end

/-- C98 (clean compressions): every list of edges is clean if the threshold of tiny columns is small enough. -/
theorem C98_clean (eps : ℝ) (es : List (GridEdge ℝ)) : ∃ δ : ℝ, 0 < δ ∧ ∀ tiny, 0 < tiny → tiny ≤ δ → CleanEdges eps tiny es := by
  have hops : ∀ l : List (GridEdge ℝ), l.map (planeOp eps) = (edgePlanes eps l).map fun a => QefOp.addPlane a.1 a.2 := by
    intro l
    unfold edgePlanes
    rw [List.map_map]; rfl
  have hall : ∀ ls : List (List (GridEdge ℝ)), ∃ δ : ℝ, 0 < δ ∧ ∀ t, 0 < t → t ≤ δ → ∀ l ∈ ls,
      CleanRun qef3Rows 30 t Qef.new3.reset (((edgePlanes eps l).map fun a => .addPlane a.1 a.2) ++ [.state]) := by
    intro ls
    induction ls with
    | nil => exact ⟨1, one_pos, fun _ _ _ l hl => absurd hl List.not_mem_nil⟩
    | cons l ls ih =>
      obtain ⟨δ, h1, h2⟩ := ih
      obtain ⟨δ', h3, h4⟩ := cleanRun_exists (d := 1) qef3Rows 30 (((edgePlanes eps l).map fun a => .addPlane a.1 a.2) ++ [.state]) Qef.new3.reset
      refine ⟨min δ δ', lt_min h1 h3, fun t ht htd l' hl' => ?_⟩
      rcases List.mem_cons.1 hl' with rfl | hl'
      · exact h4 t ht (htd.trans (min_le_right _ _))
      · exact h2 t ht (htd.trans (min_le_left _ _)) l' hl'
  obtain ⟨δ, h1, h2⟩ := hall es.permutations
  refine ⟨δ, h1, fun t ht htd es' q0 hp => ?_⟩
  have h := h2 t ht htd es' (List.mem_permutations.2 hp)
  have h' := same_clean (d := 1) _ Qef.new3.reset q0.reset ⟨rfl, rfl⟩ h
  rw [← hops, cleanRun_append] at h'
  refine ⟨⟨trivial, fun q' hq' => ?_⟩, fun q1 hr => ?_⟩
  · cases hq'; exact h'.1
  · rw [runOps, List.foldlM_cons] at hr
    simp only [QefOp.apply, Option.bind_eq_bind, Option.bind_some] at hr
    exact (h'.2 q1 hr).1

theorem cleanEdges_perm {eps tiny : ℝ} {es es' : List (GridEdge ℝ)} (h : es.Perm es') (hc : CleanEdges eps tiny es) : CleanEdges eps tiny es' :=
  fun l q0 hl => hc l q0 (hl.trans h.symm)

/-- C98 (clean compressions of a grid): for every grid, all sets of stored edges are clean if the threshold of tiny columns is small enough. -/
theorem C98_grid (eps : ℝ) (g : Grid ℝ) : ∃ δ : ℝ, 0 < δ ∧ ∀ tiny, 0 < tiny → tiny ≤ δ → ∀ es : List (GridEdge ℝ), es.Nodup →
    (∀ e ∈ es, e ∈ edgeList g) → CleanEdges eps tiny es := by
  have hall : ∀ ls : List (List (GridEdge ℝ)), ∃ δ : ℝ, 0 < δ ∧ ∀ t, 0 < t → t ≤ δ → ∀ l ∈ ls, CleanEdges eps t l := by
    intro ls
    induction ls with
    | nil => exact ⟨1, one_pos, fun _ _ _ l hl => absurd hl List.not_mem_nil⟩
    | cons l ls ih =>
      obtain ⟨δ, h1, h2⟩ := ih
      obtain ⟨δ', h3, h4⟩ := C98_clean eps l
      refine ⟨min δ δ', lt_min h1 h3, fun t ht htd l' hl' => ?_⟩
      rcases List.mem_cons.1 hl' with rfl | hl'
      · exact h4 t ht (htd.trans (min_le_right _ _))
      · exact h2 t ht (htd.trans (min_le_left _ _)) l' hl'
  obtain ⟨δ, h1, h2⟩ := hall (edgeList g).sublists
  refine ⟨δ, h1, fun t ht htd es hnd hsub => ?_⟩
  obtain ⟨l, hl, hsl⟩ := hnd.subperm (fun e he => hsub e he)
  exact cleanEdges_perm hl (h2 t ht htd l (List.mem_sublists.2 hsl))

/-- C98 on a concrete case: the tilted plane in a grid, which is crossed in the cell with the least corner (0, 0, 0). -/
example (srt : List (DcEntry ℝ) → List (DcEntry ℝ)) (hs : IsSort srt) : ∃ (g g' : Grid ℝ) (env : DcEnv ℝ) (q : Qef ℝ 3) (r : PlacedMesh ℝ)
    (cells : List IVec3) (k : Nat) (v : MeshVertex ℝ), g.Reachable ∧ g.fill tiltField (regulaFalsiFinder 0 16) = some g' ∧
    0 < env.tiny ∧ dualContouring env g' Qef.new3 = some (q, r) ∧ CellList g' cells ∧ cells[k]? = some ⟨0, 0, 0⟩ ∧ r.mesh.vertices[k]? = some v ∧
    ∃ es, StoredEdges g' ⟨0, 0, 0⟩ es ∧ es ≠ [] ∧ CleanEdges env.eps env.tiny es ∧ NearVertex env Qef.new3 ⟨0, 0, 0⟩ es v.position.toVecN := by
  classical
  obtain ⟨g, g', h1, h2, h3, h4, h5, -⟩ := tilt_demo srt 16
  have hF := C07_filled h1 h3 h4
  have hp : 0 < (Qef.new3 : Qef ℝ 3).pinvTolerance := by simp only [Qef.new3]; norm_num
  obtain ⟨δ, hδ, hall⟩ := C98_grid 0 g'
  let env : DcEnv ℝ := ⟨0, δ, fun v => v, srt⟩
  obtain ⟨⟨cells, hcells⟩, q, r, hr, -⟩ := C18_vertices (env := env) hF hs hp
  have hcell : EdgeOfCell ⟨0, 0, 0⟩ .X ⟨0, 0, 0⟩ := by
    intro v hv
    simp [edgeVertices] at hv
    rcases hv with rfl | rfl <;> simp [cellVertices]
  have hmc : 1 ≤ g'.maxCoord := by
    have := h5.1 (shift ⟨0, 0, 0⟩ 1 0 0) (by simp [edgeVertices])
    unfold InCube at this
    simp [shift] at this
    omega
  have hP : CrossingCell g' ⟨0, 0, 0⟩ := by
    refine ⟨?_, .X, ⟨0, 0, 0⟩, h5, hcell⟩
    intro v hv
    simp [cellVertices] at hv
    rcases hv with rfl | rfl | rfl | rfl | rfl | rfl | rfl | rfl <;> (unfold InCube; simp [shift]; omega)
  obtain ⟨k, hk, hkP⟩ := List.getElem_of_mem ((hcells.mem _).2 hP)
  have hkP' : cells[k]? = some ⟨0, 0, 0⟩ := by rw [List.getElem?_eq_getElem hk, hkP]
  obtain ⟨v, hv, hnear⟩ := (C98_uniform (env := env) hδ hF hs hp hr hcells).2 k _ hkP'
  have hnd : (edgeList g').Nodup := by
    have hn : ((edgeList g').map LEdge.ofGridEdge).Nodup := List.pairwise_map.2 (Stored.edgeList_nodup hF.stored)
    exact hn.of_map _
  set es := (edgeList g').filter fun e => decide (EdgeOfCell ⟨0, 0, 0⟩ e.axis e.lesser) with hes
  have hst : StoredEdges g' ⟨0, 0, 0⟩ es := ⟨hnd.filter _, fun e => by rw [hes, List.mem_filter, decide_eq_true_iff]⟩
  have hclean : CleanEdges 0 δ es := hall δ hδ (le_refl δ) es hst.1 fun e he => ((hst.2 e).1 he).1
  refine ⟨g, g', env, q, r, cells, k, v, h1, h4, hδ, hr, hcells, hkP', hv, es, hst, ?_, hclean, hnear es hst hclean⟩
  obtain ⟨e, he, hl⟩ := (hF.edge_iff .X ⟨0, 0, 0⟩).2 h5
  have hmem : e ∈ es := (hst.2 e).2 ⟨(mem_edgeList hF).2 (by rw [hF.edge_axis _ _ he]; exact he), by rw [hF.edge_axis _ _ he, hl]; exact hcell⟩
  exact List.ne_nil_of_mem hmem

end Isomesh
