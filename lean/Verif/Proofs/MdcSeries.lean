import Verif.Proofs.MdcVertex

/-! The meshes of one octree for all error bounds. -/

namespace Isomesh
open Spec Relation

set_option linter.unusedSectionVars false
variable {K : Type} [Add K] [_root_.Sub K] [Mul K] [Div K] [Neg K] [Zero K] [One K] [OfNat K 2] [OfScientific K] [NatCast K] [IntCast K]
  [Fabs K] [Elem K] [LinearOrder K] [RoundedLaws K]

variable {env : DcEnv K} {g : Grid K} {options : Qef K 3}

/-! ### Consequences of `VertexFit` -/

/-- The material selected is one of the added ones. -/
theorem select_mem : ∀ (L : List Material) (f : FilterFast), (∀ m ∈ L, m ≠ .Empty) →
    (f.addMany L).select = f.select ∨ (f.addMany L).select ∈ L := by
  intro L
  induction L with
  | nil => intro f _; exact Or.inl rfl
  | cons m L ih =>
    intro f hL
    have hm := hL m List.mem_cons_self
    have := ih (f.add m) fun m hm => hL m (List.mem_cons_of_mem _ hm)
    have e : f.addMany (m :: L) = (f.add m).addMany L := rfl
    rw [e]
    rcases this with h | h
    · rw [h]
      unfold FilterFast.add FilterFast.select
      rw [if_neg hm]
      split_ifs with h1 h2
      · exact Or.inl rfl
      · exact Or.inl rfl
      · exact Or.inr List.mem_cons_self
    · exact Or.inr (List.mem_cons_of_mem _ h)

theorem select_new {L : List Material} (hL : ∀ m ∈ L, m ≠ .Empty) (hne : L ≠ []) : (FilterFast.new.addMany L).select ∈ L := by
  cases L with
  | nil => exact absurd rfl hne
  | cons m L =>
    have hm := hL m List.mem_cons_self
    have e : FilterFast.new.addMany (m :: L) = (FilterFast.new.add m).addMany L := rfl
    have e1 : FilterFast.new.add m = ⟨m, 1⟩ := by
      unfold FilterFast.add FilterFast.new
      rw [if_neg hm, if_neg hm, if_neg (by decide)]
    rw [e, e1]
    rcases select_mem L ⟨m, 1⟩ fun m hm => hL m (List.mem_cons_of_mem _ hm) with h | h
    · rw [h]; exact List.mem_cons_self
    · exact List.mem_cons_of_mem _ h

theorem solidEnd_solid {e : LEdge} (h : CrossingEdge g e.axis e.at_) : solidAt g (solidEndOf g e) = true := by
  unfold solidEndOf
  split_ifs with h1
  · exact h1
  · have := h.2
    rcases h2 : solidAt g (edgeEnd e.axis e.at_) with _ | _
    · rw [h2] at this; simp only [Bool.not_eq_true] at h1; exact absurd h1 this
    · rfl

theorem material_of_solid {p : IVec3} (h : solidAt g p = true) : materialAt g p ≠ .Empty := by
  unfold solidAt at h
  unfold materialAt
  cases e : g.at p with
  | none => rw [e] at h; simp at h
  | some m => rw [e] at h; simpa using h

theorem fit_material {c : Cube} {X : Set CellCrossing} {w : FitVertex K} (h : VertexFit env g options c X w) :
    ∃ x ∈ X, CrossingEdge g x.axis x.at_ ∧ w.material = materialAt g (solidEndOf g x.edge) ∧ w.material ≠ .Empty := by
  induction h with
  | @cell P X w es q1 ps h1 h2 h3 h4 h5 h6 h7 h8 h9 =>
    obtain ⟨x, hx, hX⟩ := h1
    have hcr : ∀ y ∈ X, CrossingEdge g y.axis y.at_ := fun y hy => ((hX y).1 hy).2.1.1
    have hp : ∀ m ∈ ps.map (materialAt g), m ≠ .Empty := by
      intro m hm
      obtain ⟨p, hp, rfl⟩ := List.mem_map.1 hm
      obtain ⟨y, hy, rfl⟩ := (h8 p).1 hp
      exact material_of_solid (solidEnd_solid (e := y.edge) (hcr y hy))
    have hne : ps.map (materialAt g) ≠ [] := by
      intro e
      have : solidEndOf g x.edge ∈ ps := (h8 _).2 ⟨x, hx, rfl⟩
      rw [List.map_eq_nil_iff.1 e] at this
      cases this
    have := select_new hp hne
    rw [← h9] at this
    obtain ⟨p, hp', e⟩ := List.mem_map.1 this
    obtain ⟨y, hy, rfl⟩ := (h8 p).1 hp'
    exact ⟨y, hy, hcr y hy, e.symm, hp _ this⟩
  | @node c X w kids q1 h1 h2 h3 h4 h5 h6 h7 h8 h9 ih =>
    have hp : ∀ m ∈ kids.map (fun k => k.2.2.material), m ≠ .Empty := by
      intro m hm
      obtain ⟨k, hk, rfl⟩ := List.mem_map.1 hm
      obtain ⟨x, -, -, -, h⟩ := ih k hk
      exact h
    have := select_new hp (by simpa using h1)
    rw [← h9] at this
    obtain ⟨k, hk, e⟩ := List.mem_map.1 this
    obtain ⟨x, hx, h1, h2, h3⟩ := ih k hk
    exact ⟨x, (h5 x).2 ⟨k, hk, hx⟩, h1, by rw [← e]; exact h2, by rw [← e]; exact h3⟩

theorem fit_box {c : Cube} {X : Set CellCrossing} {w : FitVertex K} (h : VertexFit env g options c X w) : ∃ q1, BoxFit env c q1 w := by
  cases h with
  | cell h1 h2 h3 h4 h5 => exact ⟨_, h5⟩
  | node h1 h2 h3 h4 h5 h6 h7 => exact ⟨_, h7⟩

theorem box_closed {c : Cube} {q1 : Qef K 3} {w : FitVertex K} (h : BoxFit env c q1 w) : c.ClosedR w.position := by
  obtain ⟨q2, x, q3, h1, h2, -⟩ := h
  rw [h2]
  rw [← (upper_eq c.lo c.k).1, ← (upper_eq c.lo c.k).2] at h1
  exact solveBox_closed (env := env) h1

theorem box_error {c : Cube} {q1 : Qef K 3} {w : FitVertex K} (h : BoxFit env c q1 w) : 0 ≤ w.error := by
  obtain ⟨q2, x, q3, h1, h2, h3, -⟩ := h
  exact eval_nonneg h3

/-- In the cube of a single cell the crossings are those of one sheet. -/
theorem fit_cell {c : Cube} {X : Set CellCrossing} {w : FitVertex K} (h : VertexFit env g options c X w) (hk : c.k = 0) :
    ∃ x ∈ X, ∀ y, y ∈ X ↔ y.cell = c.lo ∧ CrossingOf g c.lo y.edge ∧ SameSheet g c.lo x.edge y.edge := by
  cases h with
  | cell h1 => exact h1
  | node h1 h2 h3 =>
    obtain ⟨k, hk'⟩ := List.exists_mem_of_ne_nil _ h1
    have := (h3 k hk').2
    omega

/-! ### The series -/

section
variable {h : MdcHeap K} {t : MdcNode} {c : Cube} (hg : MdcGood env g options h t c) (hin : CubeIn g.maxCoord c)
include hg hin

theorem vtx_eq_iff (ε : K) {x y : CellCrossing} (hx : x.In g c) (hy : y.In g c) : vtxOf h t c ε x = vtxOf h t c ε y ↔
    visOf h (collC h t ε) (xingAddr t c x) = visOf h (collC h t ε) (xingAddr t c y) := by
  unfold vtxOf
  constructor
  · intro e
    exact (List.idxOf_inj (visOf_mem hg ε (xing_mem (xingAddr_spec hg.tree hin hx)))).1 e
  · intro e; rw [e]

theorem vtx_below (ε : K) {n : Nat} (hn : n < (visList h (collC h t ε) (addrs t)).length) :
    {x | x.In g c ∧ vtxOf h t c ε x = n} = below h t c (visList h (collC h t ε) (addrs t))[n] := by
  have hr := List.getElem_mem hn
  generalize hrr : (visList h (collC h t ε) (addrs t))[n] = r at *
  have hvis := visible_iff.1 (List.mem_filter.1 hr).2
  have hidx : (visList h (collC h t ε) (addrs t)).idxOf r = n := by rw [← hrr]; exact (visList_nodup hg ε).idxOf_getElem _ _
  ext x
  constructor
  · rintro ⟨hx, e⟩
    have hp := xingAddr_spec hg.tree hin hx
    refine ⟨_, hp, ?_⟩
    unfold vtxOf at e
    rw [← hidx] at e
    rw [← (List.idxOf_inj (visOf_mem hg ε (xing_mem hp))).1 e]
    exact (vis_leaf hg ε (xing_mem hp)).1
  · rintro ⟨a, ha, hav⟩
    have hx := xing_in hg.tree hin ha
    refine ⟨hx, ?_⟩
    have := xing_unique hg.tree (xingAddr_spec hg.tree hin hx) ha
    unfold vtxOf
    rw [this, visOf_eq ⟨hav, hvis.2⟩, hidx]

theorem vtx_fit (ε : K) {n : Nat} {v : MeshVertex K} (hn : (vtxData h t ε)[n]? = some v) : ∃ c1 w, Dyadic c c1 ∧
    VertexFit env g options c1 {x | x.In g c ∧ vtxOf h t c ε x = n} w ∧ v = ⟨w.position, w.normal, w.material⟩ ∧
    (∀ x y : CellCrossing, x.In g c → y.In g c → vtxOf h t c ε x = n → vtxOf h t c ε y = n → Linked g c1 x y) ∧
    (c1.k = 0 ∨ w.error ≤ ε) := by
  classical
  unfold vtxData at hn
  rw [List.getElem?_map, Option.map_eq_some_iff] at hn
  obtain ⟨r, h1, rfl⟩ := hn
  obtain ⟨hlt, hr⟩ := List.getElem?_eq_some_iff.1 h1
  have hset := vtx_below hg hin ε hlt
  rw [hr] at hset
  have hmem := List.mem_filter.1 (List.mem_of_getElem? h1)
  obtain ⟨⟨c1, a1, a2, a0, a3⟩, u, hu, -⟩ := vertex_fit hg.ok hg.tree hin hg.cl hg.nodup hg.lnodup hg.verts r hmem.1
  refine ⟨c1, fitAt h r, a1, by rw [hset]; exact a2, ?_, ?_, ?_⟩
  · unfold vdata fitAt; rw [hu]
  · intro x y hx hy ex ey
    have hx' : x ∈ below h t c r := by rw [← hset]; exact ⟨hx, ex⟩
    have hy' : y ∈ below h t c r := by rw [← hset]; exact ⟨hy, ey⟩
    exact (a3 x hx').2 y hy'
  · have hvis := visible_iff.1 hmem.2
    have hc := hvis.2.1
    unfold collC at hc
    rw [decide_eq_true_iff] at hc
    rcases hc with hl | he
    · left
      exact a0 hl
    · right
      unfold errAt at he
      unfold fitAt
      rw [hu] at he ⊢
      simpa using he


theorem vtx_mono {ε ε' : K} (hle : ε ≤ ε') {x y : CellCrossing} (hx : x.In g c) (hy : y.In g c) (e : vtxOf h t c ε x = vtxOf h t c ε y) :
    vtxOf h t c ε' x = vtxOf h t c ε' y := by
  classical
  rw [vtx_eq_iff hg hin ε hx hy] at e
  rw [vtx_eq_iff hg hin ε' hx hy]
  have ha := xing_mem (xingAddr_spec hg.tree hin hx)
  have hb := xing_mem (xingAddr_spec hg.tree hin hy)
  generalize xingAddr t c x = a at *
  generalize xingAddr t c y = b at *
  have h1 := vis_leaf hg ε ha
  have h2 := vis_leaf hg ε hb
  rw [← e] at h2
  generalize visOf h (collC h t ε) a = r at *
  have h3 := vis_leaf hg ε' ha
  have hcoll : ∀ q, collC h t ε q = true → collC h t ε' q = true := by
    intro q
    unfold collC
    simp only [decide_eq_true_eq]
    rintro (h | h)
    · exact Or.inl h
    · exact Or.inr (h.trans hle)
  -- the new vertex is above the old one
  have h4 : Anc h r (visOf h (collC h t ε') a) := by
    rcases anc_chain h1.1 h3.1 with h4 | h4
    · exact h4
    · rcases reflTransGen_iff_eq_or_transGen.1 h4 with e | h5
      · rw [e]
      · have := h3.2.2 r h5
        rw [hcoll r h1.2.1] at this; cases this
  exact (visOf_eq ⟨h2.1.trans h4, h3.2⟩).symm

theorem vtx_coarse : ∃ E, ∀ ε, E ≤ ε → ∀ x y : CellCrossing, x.In g c → y.In g c →
    (vtxOf h t c ε x = vtxOf h t c ε y ↔ Linked g c x y) := by
  classical
  obtain ⟨E, hE⟩ : ∃ E, ∀ a ∈ addrs t, errAt h a ≤ E := by
    generalize addrs t = L
    induction L with
    | nil => exact ⟨0, by simp⟩
    | cons a L ih =>
      obtain ⟨E, hE⟩ := ih
      refine ⟨max E (errAt h a), fun b hb => ?_⟩
      rcases List.mem_cons.1 hb with rfl | hb
      · exact le_max_right _ _
      · exact (hE b hb).trans (le_max_left _ _)
  refine ⟨E, fun ε hε x y hx hy => ?_⟩
  have hpx := xingAddr_spec hg.tree hin hx
  have hpy := xingAddr_spec hg.tree hin hy
  rw [vtx_eq_iff hg hin ε hx hy, ← linked_pieces hg.tree hin hg.lnodup hpx hpy, ← hg.top _ (xing_mem hpx) _ (xing_mem hpy)]
  have key : ∀ a ∈ leafAddrs t, visOf h (collC h t ε) a = topOf h a := by
    intro a ha
    have htop := topOf_top hg.ok (clustered_lt hg.cl (leafAddrs_sub ha))
    apply visOf_eq
    refine ⟨htop.1, ?_, ?_⟩
    · unfold collC
      exact decide_eq_true (Or.inr ((hE _ (ordered_anc hg.ordered (leafAddrs_sub ha) htop.1)).trans hε))
    · intro q hq
      obtain ⟨z, hz, -⟩ := TransGen.head'_iff.1 hq
      exact absurd hz (htop.2 z)
  rw [key _ (xing_mem hpx), key _ (xing_mem hpy)]

/-- `contour` as a function of the error bound, on the octree and on all octrees differing only in the marks left by previous
calls. -/
theorem contour_fun {o : MdcOctree K} (ho : o.heap = h) (hr : o.root = t) (hs : 0 < o.globalScale * o.globalScale) :
    ∃ (M : K → Mesh K) (V : K → CellCrossing → Nat), MdcSeries env g options c o.globalScale M V ∧
      ∀ heap', Same h heap' → ∀ ε, ∃ heap'', ({ o with heap := heap' } : MdcOctree K).contour ε =
        some (⟨M ε, o.globalPos, o.globalScale⟩, { o with heap := heap'' }) ∧ Same h heap'' := by
  subst ho
  subst hr
  obtain ⟨visits, v1, v2, v3⟩ := mdc_visits hg.tree
  set S := o.globalScale * o.globalScale with hS
  have hpos : 0 < S := by rw [hS]; exact hs
  refine ⟨fun ε => (mesh_ok hg hin (ε / S)).choose, fun ε => vtxOf o.heap o.root c (ε / S), ⟨?_, ?_, ?_, ?_⟩, ?_⟩
  · intro ε
    exact (mesh_ok hg hin (ε / S)).choose_spec.2.2
  · intro ε n v hv
    have := (mesh_ok hg hin (ε / S)).choose_spec.2.1
    rw [this] at hv
    exact vtx_fit hg hin (ε / S) hv
  · intro ε ε' hle x y hx hy e
    exact vtx_mono hg hin (RoundedLaws.div_mono _ _ _ hpos hle) hx hy e
  · obtain ⟨E, hE⟩ := vtx_coarse hg hin
    obtain ⟨a, ha⟩ := RoundedLaws.div_large E S hpos
    exact ⟨a, fun ε hε => hE (ε / S) (ha.trans (RoundedLaws.div_mono _ _ _ hpos hε))⟩
  · intro heap' hsame ε
    beta_reduce
    have hg' : MdcGood env g options heap' o.root c := good_same hsame hg
    have e1 : ∀ e : K, vtxOf heap' o.root c e = vtxOf o.heap o.root c e := fun e => same_vtxOf hsame _ _ _
    have hf := (mesh_ok hg hin (ε / S)).choose_spec.1
    have h2 := (mesh_ok hg hin (ε / S)).choose_spec.2.1
    generalize (mesh_ok hg hin (ε / S)).choose = mm at *
    have hl : ∀ v ∈ visits, ∀ i, (⟨Spec.edgeCorner v.1 v.2.1 1 i, 0⟩, v.2.2 i) ∈ (locate o.root c).leaves := by
      rintro ⟨D, p, l⟩ hv
      exact (v3 D p l).1 hv
    have hlen : ∀ k : MdcHeap K, (vtxData k o.root (ε / S)).length = (visList k (collC k o.root (ε / S)) (addrs o.root)).length := by
      intro k; unfold vtxData; rw [List.length_map]
    have ha := fold_visits hg hin (ε / S) visits hl ⟨vtxData o.heap o.root (ε / S), []⟩ (hlen _)
    have hb := fold_visits hg' hin (ε / S) visits hl ⟨vtxData heap' o.root (ε / S), []⟩ (hlen _)
    rw [← v1] at ha hb
    rw [hf] at ha
    rw [e1, same_vtxData hsame] at hb
    rw [← ha] at hb
    refine ⟨markH heap' (collC heap' o.root (ε / S)) (addrs o.root) (addrs o.root), ?_, same_trans hsame (markH_same _ _ _ _)⟩
    unfold MdcOctree.contour
    dsimp only
    rw [addVertices_spec hg'.ok hg'.cl hg'.ordered hg'.nodup hg'.size]
    simp only [Option.bind_eq_bind, Option.bind_some]
    rw [← same_vtxData hsame] at hb
    unfold vtxData at hb
    rw [hb]
    rfl

end
end Isomesh
