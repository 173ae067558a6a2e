import Verif.Proofs.MdcSeries

/-! C28, C59, C60: `MDC_Octree` built from a filled grid. -/

namespace Isomesh
open Spec Relation

set_option linter.unusedSectionVars false
variable {K : Type} [Add K] [_root_.Sub K] [Mul K] [Div K] [Neg K] [Zero K] [One K] [OfNat K 2] [OfScientific K] [NatCast K] [IntCast K]
  [Fabs K] [Elem K] [LinearOrder K] [RoundedLaws K]

variable {env : DcEnv K} {g : Grid K} {options : Qef K 3}

/-! ### C28 -/

theorem series_history {h : MdcHeap K} {t : MdcNode} {c : Cube} (hg : MdcGood env g options h t c) (hin : CubeIn g.maxCoord c) {o : MdcOctree K}
    (ho : o.heap = h) (hr : o.root = t) (hs : 0 < o.globalScale * o.globalScale) :
    ∃ (M : K → Mesh K) (V : K → CellCrossing → Nat), MdcSeries env g options c o.globalScale M V ∧
      ∀ bounds : List K, ∃ o1, contourAll o bounds = some o1 ∧
        ∀ ε, ∃ o2, o1.contour ε = some (⟨M ε, o.globalPos, o.globalScale⟩, o2) := by
  obtain ⟨M, V, h1, h2⟩ := contour_fun hg hin ho hr hs
  refine ⟨M, V, h1, fun bounds => ?_⟩
  have key : ∀ (bounds : List K) (heap' : MdcHeap K), Same h heap' → ∃ heap'', contourAll { o with heap := heap' } bounds =
      some { o with heap := heap'' } ∧ Same h heap'' := by
    intro bounds
    induction bounds with
    | nil => intro heap' hs; exact ⟨heap', rfl, hs⟩
    | cons ε bounds ih =>
      intro heap' hs
      obtain ⟨heap1, e1, s1⟩ := h2 heap' hs ε
      obtain ⟨heap2, e2, s2⟩ := ih heap1 s1
      refine ⟨heap2, ?_, s2⟩
      unfold contourAll at e2 ⊢
      rw [List.foldlM_cons, e1]
      exact e2
  obtain ⟨heap1, e1, s1⟩ := key bounds h (same_refl h)
  have : ({ o with heap := h } : MdcOctree K) = o := by rw [← ho]
  rw [this] at e1
  refine ⟨_, e1, fun ε => ?_⟩
  obtain ⟨heap2, e2, -⟩ := h2 heap1 s1 ε
  exact ⟨_, e2⟩

/-- C28.  If `build` on a filled grid completes, then every sequence of `contour` calls with arbitrary error bounds
completes, and the mesh returned for a bound does not depend on the calls made before; it is a manifold dual contouring
mesh of the grid in the sense of `MdcSeries`. -/
theorem C28_contour (hg : Filled g) {o o' : MdcOctree K} {solver q' : Qef K 3} (hin : CubeIn g.maxCoord (rootCube o.level))
    (hsz : 4 * crossingCells g (rootCube o.level) + 3 < 2 ^ 32) (hs : 0 < o.globalScale * o.globalScale) (hb : o.build env g solver = some (q', o')) :
    ∃ (M : K → Mesh K) (V : K → CellCrossing → Nat), MdcSeries env g solver (rootCube o.level) o.globalScale M V ∧
      ∀ bounds : List K, ∃ o1, contourAll o' bounds = some o1 ∧
        ∀ ε, ∃ o2, o1.contour ε = some (⟨M ε, o.globalPos, o.globalScale⟩, o2) := by
  obtain ⟨h1, h2, h3, h4⟩ := mdcBuild_good hg hin hsz hb
  have := series_history h1 hin (o := o') rfl rfl (by rw [h4]; exact hs)
  rw [h3, h4] at this
  exact this

theorem cubeCells_card (level : Nat) : (cubeCells (rootCube level)).card ≤ 8 ^ level := by
  set c := rootCube level with hc
  have hk : c.k = level := rootCube_k level
  have hinj : Set.InjOn (fun P : IVec3 => (P.x, P.y, P.z)) (cubeCells c) := by
    rintro ⟨x, y, z⟩ - ⟨x', y', z'⟩ - e
    simpa using e
  rw [← Finset.card_image_of_injOn hinj]
  have hsub : (cubeCells c).image (fun P : IVec3 => (P.x, P.y, P.z)) ⊆
      Finset.Ico c.lo.x (c.lo.x + c.side) ×ˢ (Finset.Ico c.lo.y (c.lo.y + c.side) ×ˢ Finset.Ico c.lo.z (c.lo.z + c.side)) := by
    intro q hq
    obtain ⟨P, hP, rfl⟩ := Finset.mem_image.1 hq
    have := mem_cubeCells.1 hP
    unfold Cube.Has at this
    simp only [Finset.mem_product, Finset.mem_Ico]
    omega
  refine (Finset.card_le_card hsub).trans ?_
  rw [Finset.card_product, Finset.card_product, Int.card_Ico, Int.card_Ico, Int.card_Ico]
  have hside : c.side = ((2 ^ level : Nat) : Int) := by unfold Cube.side; rw [hk]; push_cast; rfl
  have e : ∀ a : Int, (a + c.side - a).toNat = 2 ^ level := by intro a; rw [hside, add_sub_cancel_left, Int.toNat_natCast]
  rw [e, e, e]
  have : (8 : Nat) ^ level = 2 ^ level * (2 ^ level * 2 ^ level) := by
    rw [show (8 : Nat) = 2 * (2 * 2) from rfl, mul_pow, mul_pow]
  omega

theorem crossingCells_le (g : Grid K) (level : Nat) : crossingCells g (rootCube level) ≤ 8 ^ level := by
  unfold crossingCells
  have h1 : {P | (rootCube level).Has P ∧ CrossingCell g P} ⊆ (cubeCells (rootCube level) : Set IVec3) := fun P hP => mem_cubeCells.2 hP.1
  refine (Set.ncard_le_ncard h1 (cubeCells _).finite_toSet).trans ?_
  rw [Set.ncard_coe_finset]
  exact cubeCells_card level

/-- The bound on the number of cells needed for C28 holds for every octree of side up to 512. -/
theorem C28_sizes (g : Grid K) {level : Nat} (hl : level ≤ 9) : 4 * crossingCells g (rootCube level) + 3 < 2 ^ 32 := by
  have h1 := crossingCells_le g level
  have h2 : 8 ^ level ≤ 8 ^ 9 := Nat.pow_le_pow_right (by norm_num) hl
  norm_num at h2 ⊢
  omega

/-- C28, completion.  With a positive tolerance of the solver and fewer than 22 million cells crossed by the surface (in
particular for every octree of side up to 256), `build` and any sequence of `contour` calls complete. -/
theorem C28_completes (hg : Filled g) (o : MdcOctree K) {solver : Qef K 3} (hin : CubeIn g.maxCoord (rootCube o.level)) (hs : 0 < o.globalScale * o.globalScale)
    (hp : 0 < solver.pinvTolerance) (hsz : 48 * crossingCells g (rootCube o.level) < 2 ^ 30 ∨ o.level ≤ 8) (bounds : List K) :
    ∃ q' o' o'', o.build env g solver = some (q', o') ∧ contourAll o' bounds = some o'' := by
  have hsz' : 48 * crossingCells g (rootCube o.level) < 2 ^ 30 := by
    rcases hsz with h | h
    · exact h
    · have h1 := crossingCells_le g o.level
      have h2 : 8 ^ o.level ≤ 8 ^ 8 := Nat.pow_le_pow_right (by norm_num) h
      norm_num at h2 ⊢
      omega
  obtain ⟨⟨q', o'⟩, hb⟩ := mdcBuild_total (env := env) hg hin hp hsz'
  obtain ⟨M, V, -, h2⟩ := C28_contour hg hin (by norm_num at hsz' ⊢; omega) hs hb
  obtain ⟨o1, h3, -⟩ := h2 bounds
  exact ⟨q', o', o1, hb, h3⟩

/-- C28, indices.  All indices of the mesh are valid and every triangle has three different corners. -/
theorem C28_indices {root : Cube} {V : CellCrossing → Nat} {m : Mesh K} (h : MdcMesh g root V m) :
    (∀ i ∈ m.indices, i < m.vertices.length) ∧
    ∀ t ∈ triangles m.indices, t.1 < m.vertices.length ∧ t.2.1 < m.vertices.length ∧ t.2.2 < m.vertices.length ∧
      t.1 ≠ t.2.1 ∧ t.2.1 ≠ t.2.2 ∧ t.1 ≠ t.2.2 := by
  have htri : ∀ t ∈ triangles m.indices, t.1 < m.vertices.length ∧ t.2.1 < m.vertices.length ∧ t.2.2 < m.vertices.length ∧
      t.1 ≠ t.2.1 ∧ t.2.1 ≠ t.2.2 ∧ t.1 ≠ t.2.2 := by
    obtain ⟨es, -, h2, h3⟩ := h.quads
    intro t ht
    rw [h3] at ht
    obtain ⟨e, he, ht⟩ := List.mem_flatMap.1 ht
    obtain ⟨hc, hb⟩ := (h2 e).1 he
    have hlt : ∀ i, V (e.seen i) < m.vertices.length := fun i => h.valid _ (edge_piece_in hc hb i)
    unfold octQuad at ht
    obtain ⟨ht, hd⟩ := List.mem_filter.1 ht
    have hd := of_decide_eq_true hd
    refine ⟨?_, ?_, ?_, hd.1, hd.2.1, hd.2.2⟩ <;> split at ht <;>
      simp only [List.mem_cons, List.not_mem_nil, or_false] at ht <;> rcases ht with rfl | rfl <;> exact hlt _
  refine ⟨?_, htri⟩
  have key : ∀ (n : Nat) (L : List Nat), L.length = 3 * n → (∀ t ∈ triangles L, t.1 < m.vertices.length ∧ t.2.1 < m.vertices.length ∧ t.2.2 < m.vertices.length) →
      ∀ i ∈ L, i < m.vertices.length := by
    intro n
    induction n with
    | zero => intro L hL _ i hi; rw [List.length_eq_zero_iff.1 (by omega : L.length = 0)] at hi; cases hi
    | succ n ih =>
      intro L hL ht i hi
      match L, hL with
      | a :: b :: c :: L, hL =>
        have e : triangles (a :: b :: c :: L) = (a, b, c) :: triangles L := rfl
        rw [e] at ht
        have h0 := ht _ List.mem_cons_self
        simp only [List.mem_cons] at hi
        rcases hi with rfl | rfl | rfl | hi
        · exact h0.1
        · exact h0.2.1
        · exact h0.2.2
        · exact ih L (by simp only [List.length_cons] at hL; omega) (fun t ht' => ht t (List.mem_cons_of_mem _ ht')) i hi
  exact key _ _ h.whole fun t ht => ⟨(htri t ht).1, (htri t ht).2.1, (htri t ht).2.2.1⟩

/-! ### C59 -/

/-- C59.  For any error bound: every vertex lies in a closed cube of the octree; all the crossings it stands for are in
cells of the cube and are connected through the surface inside the cube; its material is that of the solid end of one of
the crossing edges, never `Empty`; and a vertex standing for more than one cell has an error within the bound. -/
theorem C59_vertices {root : Cube} {scale : K} {M : K → Mesh K} {V : K → CellCrossing → Nat}
    (h : MdcSeries env g options root scale M V) (ε : K) {n : Nat} {v : MeshVertex K} (hv : (M ε).vertices[n]? = some v) :
    ∃ c, Dyadic root c ∧ c.ClosedR v.position ∧
      (∀ x : CellCrossing, x.In g root → V ε x = n → c.Has x.cell) ∧
      (∀ x y : CellCrossing, x.In g root → y.In g root → V ε x = n → V ε y = n → Linked g c x y) ∧
      v.material ≠ .Empty ∧ (∃ x : CellCrossing, x.In g root ∧ V ε x = n ∧ g.at (solidEndOf g x.edge) = some v.material) ∧
      (c.k = 0 ∨ ∃ w, VertexFit env g options c {x | x.In g root ∧ V ε x = n} w ∧ w.position = v.position ∧ w.error ≤ ε / (scale * scale)) := by
  obtain ⟨c, w, h1, h2, h3, h4, h5⟩ := h.fit ε n v hv
  obtain ⟨x0, hx0, hcr, hm, hne⟩ := fit_material h2
  obtain ⟨q1, hq⟩ := fit_box h2
  refine ⟨c, h1, by rw [h3]; exact box_closed hq, ?_, h4, by rw [h3]; exact hne, ⟨x0, hx0.1, hx0.2, ?_⟩, ?_⟩
  · intro x hx e
    have : ∀ {c X w}, VertexFit env g options c X w → ∀ x ∈ X, c.Has x.cell := by
      intro c X w hf
      induction hf with
      | @cell P X w es q1 ps h1 =>
        intro x hx
        obtain ⟨y, hy, hX⟩ := h1
        rw [((hX x).1 hx).1]
        exact has_unit P
      | @node c X w kids q1 h1 h2 h3 h4 h5 h6 h7 h8 h9 ih =>
        intro x hx
        obtain ⟨k, hk, hxk⟩ := (h5 x).1 hx
        exact cubeSub_has (dyadic_sub (h3 k hk).1) (ih k hk x hxk)
    exact this h2 x ⟨hx, e⟩
  · rw [h3]
    dsimp only
    have hs := solidEnd_solid (e := x0.edge) hcr
    rw [hm]
    unfold materialAt
    unfold solidAt at hs
    cases e : g.at (solidEndOf g x0.edge) with
    | none => rw [e] at hs; simp at hs
    | some m => rfl
  · rcases h5 with h5 | h5
    · exact Or.inl h5
    · exact Or.inr ⟨w, h2, by rw [h3], h5⟩

/-- With a negative scaled bound there is one vertex for each sheet of each cell. -/
theorem fine_gen {root : Cube} {scale : K} {M : K → Mesh K} {V : K → CellCrossing → Nat}
    (h : MdcSeries env g options root scale M V) {ε : K} (hε : ε / (scale * scale) < 0) {x y : CellCrossing} (hx : x.In g root) (hy : y.In g root) :
    V ε x = V ε y ↔ x.cell = y.cell ∧ SameSheet g x.cell x.edge y.edge := by
  constructor
  · intro e
    have hlt := (h.mesh ε).valid x hx
    obtain ⟨c, w, h1, h2, h3, h4, h5⟩ := h.fit ε (V ε x) _ (List.getElem?_eq_getElem hlt)
    have hk : c.k = 0 := by
      rcases h5 with h5 | h5
      · exact h5
      · obtain ⟨q1, hq⟩ := fit_box h2
        have := box_error hq
        exact absurd (h5.trans_lt hε) (not_lt.2 this)
    obtain ⟨z, hz, hX⟩ := fit_cell h2 hk
    have hx' := (hX x).1 ⟨hx, rfl⟩
    have hy' := (hX y).1 ⟨hy, e.symm⟩
    refine ⟨hx'.1.trans hy'.1.symm, ?_⟩
    rw [hx'.1]
    have a := hx'.2.2
    have b := hy'.2.2
    unfold SameSheet at *
    rcases a with a | a
    · exact Or.inl a
    · rcases b with b | b
      · exact Or.inl b
      · exact Or.inr (EqvGen.trans _ _ _ (EqvGen.symm _ _ a) b)
  · rintro ⟨h1, h2⟩
    exact (h.mesh ε).sheet x y hx hy h1 h2

/-- C59, negative bounds.  With a negative bound there is one vertex for each sheet of each cell. -/
theorem C59_fine {env : DcEnv ℝ} {g : Grid ℝ} {options : Qef ℝ 3} {root : Cube} {scale : ℝ} {M : ℝ → Mesh ℝ} {V : ℝ → CellCrossing → Nat} (hs : scale ≠ 0)
    (h : MdcSeries env g options root scale M V) {ε : ℝ} (hε : ε < 0) {x y : CellCrossing} (hx : x.In g root) (hy : y.In g root) :
    V ε x = V ε y ↔ x.cell = y.cell ∧ SameSheet g x.cell x.edge y.edge :=
  fine_gen h (div_neg_of_neg_of_pos hε (mul_self_pos.2 hs)) hx hy

/-- C59, great bounds.  With a great enough bound there is one vertex for each connected part of the surface in the cube. -/
theorem C59_coarse {root : Cube} {scale : K} {M : K → Mesh K} {V : K → CellCrossing → Nat}
    (h : MdcSeries env g options root scale M V) : ∃ E, ∀ ε, E ≤ ε → ∀ x y : CellCrossing, x.In g root → y.In g root →
      (V ε x = V ε y ↔ Linked g root x y) := h.coarse

/-! ### C60 -/

/-- C60.  Raising the bound only merges vertices: crossings sharing a vertex keep sharing one, the number of vertices does not
grow, and each old vertex corresponds to one new vertex. -/
theorem C60_monotone {root : Cube} {scale : K} {M : K → Mesh K} {V : K → CellCrossing → Nat}
    (h : MdcSeries env g options root scale M V) {ε ε' : K} (hle : ε ≤ ε') :
    (M ε').vertices.length ≤ (M ε).vertices.length ∧
    ∃ F : Nat → Nat, (∀ x : CellCrossing, x.In g root → V ε' x = F (V ε x)) ∧
      ∀ n < (M ε').vertices.length, ∃ m < (M ε).vertices.length, F m = n := by
  have hF : ∀ m : Nat, ∃ n, ∀ x : CellCrossing, x.In g root → V ε x = m → V ε' x = n := by
    intro m
    by_cases hx : ∃ x : CellCrossing, x.In g root ∧ V ε x = m
    · obtain ⟨x, hx, e⟩ := hx
      exact ⟨V ε' x, fun y hy ey => h.mono ε ε' hle y x hy hx (ey.trans e.symm)⟩
    · exact ⟨0, fun x hx' e => absurd ⟨x, hx', e⟩ hx⟩
  choose F hF using hF
  have hsurj : ∀ n < (M ε').vertices.length, ∃ m < (M ε).vertices.length, F m = n := by
    intro n hn
    obtain ⟨x, hx, e⟩ := (h.mesh ε').used n hn
    exact ⟨V ε x, (h.mesh ε).valid x hx, ((hF _ x hx rfl).symm.trans e)⟩
  refine ⟨?_, F, fun x hx => hF _ x hx rfl, hsurj⟩
  have hsub : Finset.range (M ε').vertices.length ⊆ (Finset.range (M ε).vertices.length).image F := by
    intro n hn
    obtain ⟨m, hm, e⟩ := hsurj n (Finset.mem_range.1 hn)
    exact Finset.mem_image.2 ⟨m, Finset.mem_range.2 hm, e⟩
  have := (Finset.card_le_card hsub).trans Finset.card_image_le
  simpa using this

end Isomesh
