import Verif.Props.FlatOct
import Verif.Props.MdcOctree

/-! C70: flat surfaces are reproduced exactly (MDC octree). -/

namespace Isomesh

open Spec Set

/-- Disjoint finite parts of a finite set. -/
theorem sum_ncard_le {α β : Type} (F : β → Set α) {Y : Set α} (hY : Y.Finite) : ∀ l : List β, (∀ b ∈ l, F b ⊆ Y) →
    l.Pairwise (fun b b' => ∀ x ∈ F b, x ∉ F b') → (l.map fun b => (F b).ncard).sum ≤ Y.ncard := by
  intro l
  induction l generalizing Y with
  | nil => intro _ _; simp
  | cons b l ih =>
    intro hs hp
    rw [List.pairwise_cons] at hp
    have h1 := ih (Y := Y \ F b) (hY.subset diff_subset) (fun c hc x hx => ⟨hs c (by simp [hc]) hx, fun hb => hp.1 c hc x hb hx⟩) hp.2
    have h2 := Set.ncard_diff_add_ncard_of_subset (hs b (by simp)) hY
    rw [List.map_cons, List.sum_cons]
    omega

/-- There are at most 24 crossings for each cell. -/
theorem crossings_count (g : Grid ℝ) (level : Nat) : {x : CellCrossing | x.In g (rootCube level)}.Finite ∧
    {x : CellCrossing | x.In g (rootCube level)}.ncard ≤ 24 * 8 ^ level := by
  classical
  let D : Finset (IVec3 × Axis × Fin 8) := (cubeCells (rootCube level)) ×ˢ ({Axis.X, .Y, .Z} : Finset Axis) ×ˢ Finset.univ
  let G : IVec3 × Axis × Fin 8 → CellCrossing := fun t => ⟨t.1, t.2.1, octCorner t.1 1 t.2.2⟩
  have hsub : {x : CellCrossing | x.In g (rootCube level)} ⊆ (D.image G : Set CellCrossing) := by
    rintro ⟨P, A, p⟩ ⟨hc, -, he⟩
    have hb := he p (by cases A <;> simp [edgeVertices, CellCrossing.edge])
    obtain ⟨i, hi⟩ : ∃ i : Fin 8, p = octCorner P 1 i := by
      simp only [CellCrossing.edge, cellVertices, List.mem_cons, List.not_mem_nil, or_false] at hb
      rcases hb with e | e | e | e | e | e | e | e
      · exact ⟨0, by rw [e]; simp [octCorner, octOff, shift]⟩
      · exact ⟨1, by rw [e]; simp [octCorner, octOff, shift]⟩
      · exact ⟨2, by rw [e]; simp [octCorner, octOff, shift]⟩
      · exact ⟨3, by rw [e]; simp [octCorner, octOff, shift]⟩
      · exact ⟨4, by rw [e]; simp [octCorner, octOff, shift]⟩
      · exact ⟨5, by rw [e]; simp [octCorner, octOff, shift]⟩
      · exact ⟨6, by rw [e]; simp [octCorner, octOff, shift]⟩
      · exact ⟨7, by rw [e]; simp [octCorner, octOff, shift]⟩
    rw [Finset.coe_image]
    refine ⟨(P, A, i), ?_, by simp only [G]; rw [hi]⟩
    simp only [D, Finset.coe_product, Set.mem_prod, Finset.mem_coe, mem_cubeCells, Finset.mem_univ, and_true]
    exact ⟨hc, by cases A <;> simp⟩
  refine ⟨(Finset.finite_toSet _).subset hsub, (Set.ncard_le_ncard hsub (Finset.finite_toSet _)).trans ?_⟩
  rw [Set.ncard_coe_finset]
  refine Finset.card_image_le.trans ?_
  simp only [D, Finset.card_product, Finset.card_univ, Fintype.card_fin]
  have h1 : ({Axis.X, .Y, .Z} : Finset Axis).card = 3 := by decide
  have h2 : (cubeCells (rootCube level)).card ≤ 8 ^ level := cubeCells_card level
  rw [h1]; omega

section
variable {g g' : Grid ℝ} {f : ScalarField ℝ} {n : Vec3 ℝ} {d nan : ℝ} {steps : Int}

theorem dyadic_box {c e : Cube} (h : Dyadic c e) (j : Fin 3) : (c.lo.toReal : Vec3 ℝ).toVecN j ≤ e.lo.toReal.toVecN j ∧
    ((upperCorner e.lo e.k).toReal : Vec3 ℝ).toVecN j ≤ (upperCorner c.lo c.k).toReal.toVecN j := by
  induction h with
  | root => exact ⟨le_refl _, le_refl _⟩
  | @octant c' i hk _ ih =>
    obtain ⟨lo, k⟩ := c'
    obtain ⟨k, rfl⟩ : ∃ k', k = k' + 1 := ⟨k - 1, by dsimp only at hk; omega⟩
    have := octant_box lo k i j
    exact ⟨ih.1.trans this.1, this.2.trans ih.2⟩

/-- What a vertex of an MDC octree over a plane is. -/
structure FlatFit (env : DcEnv ℝ) (g : Grid ℝ) (n : Vec3 ℝ) (d s : ℝ) (c : Cube) (X : Set CellCrossing) (w : FitVertex ℝ) : Prop where
  state : FlatS (planeRow env g n d s) c.lo.toReal.toVecN (upperCorner c.lo c.k).toReal.toVecN X.ncard w.state
  on : ∑ i : Fin 3, planeRow env g n d s i.castSucc * w.position.toVecN i = planeRow env g n d s (Fin.last 3)
  error : w.error = 0
  normal : TrueNormalize env.normalize → w.normal = unitVec n

theorem flat_box {env : DcEnv ℝ} {w : Fin 4 → ℝ} (ht : 0 < env.tiny) (hw : FlatRow (d := 3) env.tiny w) {c : Cube} {N : Nat} {q1 : Qef ℝ 3}
    (hq : FlatQ qef3Rows w c.lo.toReal.toVecN (upperCorner c.lo c.k).toReal.toVecN N q1) {v : FitVertex ℝ} (hb : BoxFit env c q1 v) :
    FlatS w c.lo.toReal.toVecN (upperCorner c.lo c.k).toReal.toVecN N v.state ∧
      (∑ i : Fin 3, w i.castSucc * v.position.toVecN i = w (Fin.last 3)) ∧ v.error = 0 := by
  obtain ⟨q2, x, q3, h1, h2, h3, h4⟩ := hb
  rw [← (upper_eq c.lo c.k).1, ← (upper_eq c.lo c.k).2] at h1
  obtain ⟨k1, k2, k3, -⟩ := flatQ_solve ht hw hq h1
  refine ⟨(flatQ_state ht hw k1 h4).2, ?_, ?_⟩
  · rw [h2, toVecN_ofVecN]; exact k2
  · rw [h3] at k3; exact Option.some.inj k3

theorem flat_fit (hg : g.Reachable) (hstep : 0 < g.step) (hf : PlaneField f n d) (hp : ProperField f)
    (h : g.fill f (regulaFalsiFinder nan steps) = some g') {env : DcEnv ℝ} (hn : GoodDirection env n) {s : ℝ} (hs : 0 < s)
    (hs' : edgeNormal env.eps n = ⟨s * n.x, s * n.y, s * n.z⟩) {options : Qef ℝ 3} {T : Set CellCrossing} (hT : T.Finite)
    (hT' : T.ncard < 2 ^ 32) {c : Cube} {X : Set CellCrossing} {w : FitVertex ℝ} (hv : VertexFit env g' options c X w) (hX : X ⊆ T) :
    FlatFit env g' n d s c X w := by
  have hF := C07_filled hg hp h
  have hw := planeRow_flat (g := g') hn hf hs hs'
  induction hv with
  | @cell P X w es q1 ps h1 h2 h3 h4 h5 h6 _ _ _ =>
    have hsub : ∀ e ∈ es, e ∈ edgeList g' ∧ EdgeOfCell P e.axis e.lesser := by
      intro e he
      obtain ⟨e1, e2⟩ := (h3 e).1 he
      obtain ⟨x, -, hx⟩ := h1
      exact ⟨e1, ((hx _).1 e2).2.1.2⟩
    have hfq := flat_cell_run hg hstep hf hp h hn hs hs' h2 hsub h4
    have hlen : es.length ≤ X.ncard := by
      classical
      have hnd : (es.map fun e => (⟨P, e.axis, e.lesser⟩ : CellCrossing)).Nodup := by
        apply List.Nodup.map_on _ h2
        intro a ha b hb hab
        simp only [CellCrossing.mk.injEq, true_and] at hab
        by_contra hne
        have : Std.Symm (fun a b : GridEdge ℝ => LEdge.ofGridEdge a ≠ LEdge.ofGridEdge b) := ⟨fun _ _ h => h.symm⟩
        exact (edgeList_nodup hF).forall (hsub a ha).1 (hsub b hb).1 hne (by simp only [LEdge.ofGridEdge, hab])
      rw [← List.length_map (fun e : GridEdge ℝ => (⟨P, e.axis, e.lesser⟩ : CellCrossing)), ← List.toFinset_card_of_nodup hnd,
        ← Set.ncard_coe_finset]
      apply Set.ncard_le_ncard _ (hT.subset hX)
      intro y hy
      simp only [List.coe_toFinset, List.mem_map, Set.mem_ofPred_eq] at hy
      obtain ⟨e, he, rfl⟩ := hy
      exact ((h3 e).1 he).2
    have hq : FlatQ qef3Rows (planeRow env g' n d s) P.toReal.toVecN (upperCorner P 0).toReal.toVecN X.ncard q1 := by
      have e1 : P.toReal.toVecN = cellLo P := (upper_eq (K := ℝ) P 0).1
      have e2 : ((upperCorner P 0).toReal.toVecN : VecN ℝ 3) = cellHi P := by rw [(upper_eq (K := ℝ) P 0).2]; simp [cellHi]
      rw [e1, e2]
      exact ⟨hfq.inv, hfq.rows, hfq.mass.mono (fun _ => le_refl _) (fun _ => le_refl _) hlen⟩
    obtain ⟨b1, b2, b3⟩ := flat_box (c := ⟨P, 0⟩) hn.tiny_pos hw hq h5
    refine ⟨b1, b2, b3, fun htn => ?_⟩
    have hpos : 0 < es.length := by
      obtain ⟨q2, x, q3, hsol, -⟩ := h5
      obtain ⟨q1', hc, hcnt, -⟩ := solve_eq hsol
      have h4 := (flatQ_compress hn.tiny_pos hw hfq hc).1.mass.bound
      omega
    rw [h6, foldl_add_const es _ (m := ⟨s * n.x, s * n.y, s * n.z⟩) fun e he => by
      rw [(plane_edge hg hstep hf hp h (hsub e he).1).1, hs']]
    have := normalize_smul htn hf.nonzero (t := es.length * s) (by positivity)
    rw [← this]
    simp only [zero_add, mul_assoc]
  | @node c X w kids q1 h1 h2 h3 h4 h5 h6 h7 h8 _ ih =>
    have hk : ∀ k ∈ kids, FlatFit env g' n d s k.1 k.2.1 k.2.2 := fun k hk => ih k hk fun x hx => hX ((h5 x).2 ⟨k, hk, hx⟩)
    have hsum : (kids.map fun k => k.2.1.ncard).sum ≤ X.ncard :=
      sum_ncard_le (fun k => k.2.1) (hT.subset hX) kids (fun k hk x hx => (h5 x).2 ⟨k, hk, hx⟩) h4
    have hle : X.ncard ≤ T.ncard := Set.ncard_le_ncard hX hT
    rw [runOps, List.foldlM_cons] at h6
    simp only [QefOp.apply, Option.bind_eq_bind, Option.bind_some] at h6
    have := flatQ_run_merges hn.tiny_pos hw (M := qef3Rows) (lo := c.lo.toReal.toVecN) (hi := (upperCorner c.lo c.k).toReal.toVecN) (bits := 30)
      (by decide) kids (fun k => k.2.2.state) (fun k => k.2.1.ncard) (by
        intro k hk'
        have hb := dyadic_box (h3 k hk').1
        exact (hk k hk').state.mono (fun j => (hb j).1) (fun j => (hb j).2) (le_refl _)) (flatQ_reset qef3Rows _ _ _ options) (by omega) h6
    have hq : FlatQ qef3Rows (planeRow env g' n d s) c.lo.toReal.toVecN (upperCorner c.lo c.k).toReal.toVecN X.ncard q1 :=
      ⟨this.inv, this.rows, this.mass.mono (fun _ => le_refl _) (fun _ => le_refl _) (by omega)⟩
    obtain ⟨b1, b2, b3⟩ := flat_box hn.tiny_pos hw hq h7
    refine ⟨b1, b2, b3, fun htn => ?_⟩
    have hpos : 0 < kids.length := List.length_pos_iff.2 h1
    rw [h8, foldl_add_const kids _ (m := unitVec n) fun k hk' => (hk k hk').normal htn]
    have hlen := unitVec_ne hf.nonzero
    have := normalize_smul htn hf.nonzero (t := kids.length / n.length) (by positivity)
    refine Eq.trans ?_ this
    congr 1
    ext <;> dsimp only [unitVec] <;> ring

/-- C70 (MDC octree): with the regula falsi solver, any number of steps, any error bound and any options of the QEF solver, after any sequence
of earlier `contour` calls, the mesh of a plane lies on the plane, and its normals are the normal of the plane. -/
theorem C70_mdc_octree (hg : g.Reachable) (hstep : 0 < g.step) (hf : PlaneField f n d) (hp : ProperField f)
    (h : g.fill f (regulaFalsiFinder nan steps) = some g') {env : DcEnv ℝ} (hn : GoodDirection env n) {o o' o1 o2 : MdcOctree ℝ}
    {solver q' : Qef ℝ 3} (ho1 : o.globalPos = g.globalPos) (ho2 : o.globalScale = g.step) (hlev : o.level ≤ 9)
    (hin : CubeIn g'.maxCoord (rootCube o.level)) (hb : o.build env g' solver = some (q', o')) {bounds : List ℝ}
    (h1 : contourAll o' bounds = some o1) {ε : ℝ} {r : PlacedMesh ℝ} (h2 : o1.contour ε = some (r, o2)) :
    ExactlyOn f r ∧ (TrueNormalize env.normalize → ∀ v ∈ r.mesh.vertices, v.normal = unitVec n) := by
  have hF := C07_filled hg hp h
  obtain ⟨g'', hfill, ⟨-, -, hpos, hst⟩, -⟩ := C06_fill_materials hg f (regulaFalsiFinder nan steps)
  rw [h] at hfill; cases hfill
  obtain ⟨s, hs, hs'⟩ := hn.exact
  have hsc : o.globalScale ≠ 0 := by rw [ho2]; exact hstep.ne'
  obtain ⟨M, V, hS, hall⟩ := C28_contour hF hin (C28_sizes g' hlev) (mul_self_pos.2 hsc) hb
  obtain ⟨o1', e1, e2⟩ := hall bounds
  rw [h1] at e1; cases e1
  obtain ⟨o2', e3⟩ := e2 ε
  rw [h2] at e3; cases e3
  obtain ⟨hfin, hcard⟩ := crossings_count g' o.level
  have hcard' : {x : CellCrossing | x.In g' (rootCube o.level)}.ncard < 2 ^ 32 := by
    have : 8 ^ o.level ≤ 8 ^ 9 := Nat.pow_le_pow_right (by norm_num) hlev
    omega
  have key : ∀ v ∈ (M ε).vertices, f.value (meshToWorld ⟨M ε, o.globalPos, o.globalScale⟩ v.position) = 0 ∧
      (TrueNormalize env.normalize → v.normal = unitVec n) := by
    intro v hv
    obtain ⟨i, hi⟩ := List.mem_iff_getElem?.1 hv
    obtain ⟨c, w, -, hfit, rfl, -⟩ := hS.fit ε i v hi
    have hff := flat_fit hg hstep hf hp h hn hs hs' hfin hcard' hfit fun x hx => hx.1
    refine ⟨?_, hff.normal⟩
    have e3 := hff.on
    rw [planeRow_iff (env := env) (by rw [hst]; exact hstep) hf hs hs'] at e3
    have : ∀ x, g'.localToGlobal x = meshToWorld ⟨M ε, o.globalPos, o.globalScale⟩ x := by
      intro x; simp only [meshToWorld, Grid.localToGlobal, hpos, hst, ho1, ho2]
    rw [← this]; exact e3
  exact ⟨onTriangle_zero hf fun v hv => (key v hv).1, fun htn v hv => (key v hv).2 htn⟩

end

end Isomesh
