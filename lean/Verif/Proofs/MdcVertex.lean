import Verif.Proofs.MdcBuildOk
import Verif.Props.DcCollapse

/-! What the vertices of a clustered octree stand for. -/

namespace Isomesh
open Spec Relation

set_option linter.unusedSectionVars false
variable {K : Type} [Add K] [_root_.Sub K] [Mul K] [Div K] [Neg K] [Zero K] [One K] [OfNat K 2] [OfScientific K] [NatCast K] [IntCast K]
  [Fabs K] [Elem K] [LinearOrder K] [RoundedLaws K]

variable {env : DcEnv K} {g : Grid K} {options : Qef K 3} {h : MdcHeap K}

/-- The vertex at an address. -/
noncomputable def fitAt (h : MdcHeap K) (v : Nat) : FitVertex K :=
  match h[v]? with
  | some u => ⟨u.position, u.normal, u.material, u.error, u.qef.getD ⟨fun _ _ => 0, fun _ => 0, 0, 0⟩⟩
  | none => ⟨⟨0, 0, 0⟩, ⟨0, 0, 0⟩, .Empty, 0, ⟨fun _ _ => 0, fun _ => 0, 0, 0⟩⟩

/-- The crossings below an address. -/
def below (h : MdcHeap K) (t : MdcNode) (c : Cube) (v : Nat) : Set CellCrossing := {x | ∃ a, PieceAt t c x a ∧ Anc h a v}

theorem dyadic_trans {a b c : Cube} (h1 : Dyadic a b) (h2 : Dyadic b c) : Dyadic a c := by
  induction h2 with
  | root => exact h1
  | octant i hk _ ih => exact Dyadic.octant i hk ih

theorem dyadic_octant {c d : Cube} (hk : 0 < c.k) (i : Fin 8) (h1 : Dyadic (c.octant i) d) : Dyadic c d :=
  dyadic_trans (Dyadic.octant i hk Dyadic.root) h1

theorem dyadic_k {c d : Cube} (h1 : Dyadic c d) : d.k ≤ c.k := by
  induction h1 with
  | root => exact le_refl _
  | octant i hk _ ih => exact le_trans (Nat.sub_le _ _) ih

theorem dyadic_sub {c d : Cube} (h1 : Dyadic c d) : Cube.Sub d c := by
  induction h1 with
  | root => exact cubeSub_refl _
  | octant i hk _ ih =>
    rename_i e _
    refine cubeSub_trans ?_ ih
    obtain ⟨lo, k⟩ := e
    cases k with
    | zero => cases hk
    | succ k => exact octant_sub i

theorem dyadic_in {n : Int} {c d : Cube} (hc : CubeIn n c) (h1 : Dyadic c d) : CubeIn n d := fun p hp => hc p (closed_sub (dyadic_sub h1) hp)

theorem piece_inner {d : Nat × List Nat} {ch : Fin 8 → MdcNode} {c : Cube} {x : CellCrossing} {a : Nat} :
    PieceAt (.inner d ch) c x a ↔ ∃ i, PieceAt (ch i) (c.octant i) x a := by
  unfold PieceAt
  rw [leaves_inner]
  simp only [List.mem_flatMap, List.mem_finRange, true_and]
  constructor
  · rintro ⟨l, i, s, ⟨j, hj⟩, h2⟩; exact ⟨j, l, i, s, hj, h2⟩
  · rintro ⟨j, l, i, s, hj, h2⟩; exact ⟨l, i, s, ⟨j, hj⟩, h2⟩

theorem boxFit_of {c : Cube} {q1 : Qef K 3} {v : Nat} {u : MdcVertex K} (hu : h[v]? = some u) (hs : Solved env c q1 u) :
    BoxFit env c q1 (fitAt h v) := by
  obtain ⟨q2, x, qs, h1, h2, h3, h4, h5⟩ := hs
  unfold dcSolveBox at h1
  rw [(upper_eq c.lo c.k).1, (upper_eq c.lo c.k).2] at h1
  refine ⟨q2, x, qs.1, h1, ?_, ?_, ?_⟩
  · unfold fitAt; rw [hu]; exact h2
  · unfold fitAt; rw [hu]; exact h3
  · unfold fitAt; rw [hu]; dsimp only; rw [h5]; exact h4

/-- Facts on the vertices of the leaves kept in the heap. -/
def LeafFacts (env : DcEnv K) (g : Grid K) (options : Qef K 3) (h : MdcHeap K) (t : MdcNode) (c : Cube) : Prop :=
  ∀ x ∈ (locate t c).leaves, ∀ s a, x.2.verts[s]? = some a → ∃ v0 v, LeafVert env g options x.1.lo x.2.corners s v0 ∧ h[a]? = some v ∧
    v.position = v0.position ∧ v.normal = v0.normal ∧ v.material = v0.material ∧ v.error = v0.error ∧ v.qef = v0.qef

/-- Vertices of one cell. -/
theorem leaf_fit {l : MdcLeaf} {c : Cube} {depth : Nat} (ht : MTree g (.leaf l) c depth) (hin : CubeIn g.maxCoord c)
    (hcl : Clustered env options h (.leaf l) c) (hn : (leafAddrs (.leaf l)).Nodup) (hv : LeafFacts env g options h (.leaf l) c)
    {v : Nat} (hva : v ∈ addrs (.leaf l)) :
    VertexFit env g options c (below h (.leaf l) c v) (fitAt h v) ∧ (∃ u, h[v]? = some u ∧ u.qef ≠ none) ∧
      ∀ x ∈ below h (.leaf l) c v, c.Has x.cell ∧ ∀ y ∈ below h (.leaf l) c v, Linked g c x y := by
  have hva' : v ∈ leafAddrs (.leaf l) := by simpa [leafAddrs, Oct.leaves, addrs] using hva
  have hb : ∀ x, x ∈ below h (.leaf l) c v ↔ PieceAt (.leaf l) c x v := by
    intro x
    constructor
    · rintro ⟨a, h1, h2⟩
      rcases ReflTransGen.cases_tail h2 with rfl | ⟨b, -, hb⟩
      · exact h1
      · exact absurd hb (leaf_noPar hcl v hva' b)
    · intro h1; exact ⟨v, h1, ReflTransGen.refl⟩
  obtain ⟨x0, hx0⟩ := xing_of_addr ht hva'
  have hlink : ∀ x ∈ below h (.leaf l) c v, c.Has x.cell ∧ ∀ y ∈ below h (.leaf l) c v, Linked g c x y := by
    intro x hx
    have hx' := (hb x).1 hx
    refine ⟨(xing_in ht hin hx').1, fun y hy => ?_⟩
    have hy' := (hb y).1 hy
    exact EqvGen.rel _ _ ⟨xing_in ht hin hx', xing_in ht hin hy', Or.inl ((xing_sheet ht hin hn hx' hy').1 rfl)⟩
  obtain ⟨l', i, s, h1, h2, h3, h4⟩ := id hx0
  have hl' : c = ⟨x0.cell, 0⟩ ∧ l' = l := by
    have : ((⟨x0.cell, 0⟩, l') : Cube × MdcLeaf) ∈ [(c, l)] := h1
    rw [List.mem_singleton] at this
    injection this with a b
    exact ⟨a.symm, b⟩
  obtain ⟨hc, rfl⟩ := hl'
  generalize hP : x0.cell = P at *
  subst hc
  have hok := (mtree_leaf ht _ h1).2.1
  have hci := leaf_cellIn ht hin h1
  dsimp only at hok
  have hvn : l'.verts.Nodup := by simpa [leafAddrs, Oct.leaves] using hn
  -- crossings of the vertex by edge number
  have hbe : ∀ y, y ∈ below h (.leaf l') ⟨P, 0⟩ v ↔ y.cell = P ∧ ∃ j : Fin 12, y.edge = cellEdge P j ∧ mdcSet (mdcMask l'.corners) j = s := by
    intro y
    rw [hb]
    constructor
    · rintro ⟨l2, j, s2, k1, k2, k3, k4⟩
      have : ((⟨y.cell, 0⟩, l2) : Cube × MdcLeaf) ∈ [((⟨P, 0⟩ : Cube), l')] := k1
      rw [List.mem_singleton] at this
      injection this with a b
      injection a with a
      subst b
      refine ⟨a, j, by rw [← a]; exact k2, ?_⟩
      rw [← hok.mask, k3]
      obtain ⟨u1, v1⟩ := List.getElem?_eq_some_iff.1 k4
      obtain ⟨u2, v2⟩ := List.getElem?_eq_some_iff.1 h4
      rw [(List.Nodup.getElem_inj_iff hvn).1 (v1.trans v2.symm)]
    · rintro ⟨a, j, k1, k2⟩
      refine ⟨l', j, s, ?_, by rw [a]; exact k1, by rw [hok.mask, k2], h4⟩
      rw [a]; exact h1
  obtain ⟨v0, u, hlv, hu, e1, e2, e3, e4, e5⟩ := hv _ h1 s v h4
  dsimp only at hlv
  obtain ⟨es, q1, f1, f2, f3, f4, f5, f6, f7, f8, f9, f10⟩ := hlv.fit
  obtain ⟨cs, m1, m2, m3⟩ := hlv.mat
  have hsol : Solved env ⟨P, 0⟩ q1 u := by
    obtain ⟨q2, x, qs, a1, a2, a3, a4, a5⟩ := f9
    exact ⟨q2, x, qs, a1, by rw [e1]; exact a2, by rw [e4]; exact a3, a4, by rw [e5]; exact a5⟩
  refine ⟨?_, ⟨u, hu, ?_⟩, hlink⟩
  · refine VertexFit.cell (es := es) (q1 := q1) (ps := cs.map (octCorner P 1)) ⟨x0, (hb x0).2 hx0, ?_⟩ f3 ?_ f5 (boxFit_of hu hsol) ?_ ?_ ?_ ?_
    · intro y
      rw [hb]
      constructor
      · intro hy
        have hsh := (xing_sheet ht hin hn hx0 hy).1 rfl
        rw [hP] at hsh
        have hyin := xing_in ht hin hy
        refine ⟨hsh.1.symm, ?_, hsh.2⟩
        have := hyin.2
        rw [← hsh.1] at this
        exact this
      · rintro ⟨a1, a2, a3⟩
        have hyin : y.In g ⟨P, 0⟩ := ⟨by rw [a1]; exact has_unit P, by rw [a1]; exact a2⟩
        obtain ⟨b, hy⟩ := xing_exists ht hin hyin
        have := (xing_sheet ht hin hn hx0 hy).2 ⟨by rw [hP, a1], by rw [hP]; exact a3⟩
        rw [this]; exact hy
    · intro e
      rw [f4, hbe]
      unfold InSet
      refine and_congr_right fun _ => ?_
      simp only [List.mem_finRange, true_and]
      constructor
      · rintro ⟨j, a1, a2, a3⟩
        exact ⟨j, by unfold CellCrossing.edge cellEdge; rw [a1, a2], a3⟩
      · rintro ⟨j, a1, a2⟩
        unfold CellCrossing.edge cellEdge at a1
        injection a1 with b1 b2
        exact ⟨j, b1, b2, a2⟩
    · unfold fitAt; rw [hu]; dsimp only; rw [e2]; exact f10
    · exact m1.map (fun a b e => octCorner_inj P e)
    · intro p
      rw [List.mem_map]
      constructor
      · rintro ⟨k, hk, rfl⟩
        obtain ⟨j, j1, j2⟩ := (m2 k).1 hk
        refine ⟨⟨P, cellEdgeAxis j, mdcPos P j⟩, (hbe _).2 ⟨rfl, j, rfl, j1⟩, ?_⟩
        rw [← j2]
        exact solidEnd_cell hok.corners j
      · rintro ⟨y, hy, rfl⟩
        obtain ⟨-, j, j1, j2⟩ := (hbe y).1 hy
        refine ⟨solidEnd l'.corners j, (m2 _).2 ⟨j, j2, rfl⟩, ?_⟩
        rw [j1]
        exact (solidEnd_cell hok.corners j).symm
    · have hm : (cs.map (octCorner P 1)).map (materialAt g) = cs.map l'.corners := by
        rw [List.map_map]
        apply List.map_congr_left
        intro k _
        simp only [Function.comp, materialAt, hok.corners k, Option.getD_some]
      rw [hm]
      unfold fitAt
      rw [hu]
      dsimp only
      rw [e3]
      exact m3
  · obtain ⟨q2, x, qs, a1, a2, a3, a4, a5⟩ := hsol
    rw [a5]; simp

theorem mtree_octant_in {d : Nat × List Nat} {ch : Fin 8 → MdcNode} {c : Cube} {depth : Nat} (ht : MTree g (.inner d ch) c depth) {n : Int} (hin : CubeIn n c)
    (i : Fin 8) : CubeIn n (c.octant i) := cubeIn_sub ht.1 hin i

/-- What the vertices of a tree stand for. -/
theorem vertex_fit (ok : HeapOK h) : ∀ {t : MdcNode} {c : Cube} {depth : Nat}, MTree g t c depth → CubeIn g.maxCoord c →
    Clustered env options h t c → (addrs t).Nodup → (leafAddrs t).Nodup → LeafFacts env g options h t c → ∀ v ∈ addrs t,
    (∃ c1, Dyadic c c1 ∧ VertexFit env g options c1 (below h t c v) (fitAt h v) ∧
      (v ∈ leafAddrs t → c1.k = 0) ∧
      ∀ x ∈ below h t c v, c1.Has x.cell ∧ ∀ y ∈ below h t c v, Linked g c1 x y) ∧ (∃ u, h[v]? = some u ∧ u.qef ≠ none) := by
  intro t
  induction t with
  | leaf l =>
    intro c depth ht hin hcl _ hn hv v hva
    obtain ⟨h1, h2, h3⟩ := leaf_fit ht hin hcl hn hv hva
    exact ⟨⟨c, Dyadic.root, h1, fun _ => ht.1, h3⟩, h2⟩
  | inner d ch ih =>
    intro c depth ht hin hcl had hn hv v hva
    have hcd := leafAddrs_disj hn
    rw [addrs_inner, List.nodup_append] at had
    obtain ⟨hd1, hd2, hd3⟩ := had
    have hni : ∀ i, (addrs (ch i)).Nodup := fun i => (List.nodup_flatMap.1 hd2).1 i (List.mem_finRange i)
    have hdis : ∀ i j a, a ∈ addrs (ch i) → a ∈ addrs (ch j) → i = j := by
      intro i j a hi hj
      by_contra hne
      have hp := (List.nodup_flatMap.1 hd2).2
      have hlt : ∀ i j : Fin 8, i < j → List.Disjoint (addrs (ch i)) (addrs (ch j)) := by
        intro i j hij
        have := List.pairwise_iff_getElem.1 hp i j (by simp) (by simp) hij
        simpa using this
      rcases lt_or_gt_of_ne hne with hl | hl
      · exact hlt _ _ hl hi hj
      · exact hlt _ _ hl hj hi
    have hvi : ∀ i, LeafFacts env g options h (ch i) (c.octant i) := by
      intro i x hx
      refine hv x ?_
      rw [leaves_inner]
      exact List.mem_flatMap.2 ⟨i, List.mem_finRange i, hx⟩
    have hci := fun i => mtree_octant_in ht hin i
    have ihi : ∀ i, ∀ v ∈ addrs (ch i), _ := fun i v hv => ih i (ht.2.2 i) (hci i) (hcl.2 i) (hni i) (hcd.1 i) (hvi i) v hv
    -- crossings below a vertex of a child
    have hbel : ∀ i, ∀ v ∈ addrs (ch i), below h (.inner d ch) c v = below h (ch i) (c.octant i) v := by
      intro i v hvi
      ext x
      constructor
      · rintro ⟨a, h1, h2⟩
        obtain ⟨j, hj⟩ := piece_inner.1 h1
        have ha := clustered_anc (hcl.2 i) hvi h2
        cases hdis i j a ha (leafAddrs_sub (xing_mem hj))
        exact ⟨a, hj, h2⟩
      · rintro ⟨a, h1, h2⟩
        exact ⟨a, piece_inner.2 ⟨i, h1⟩, h2⟩
    rcases mem_addrs_inner.1 hva with hvd | ⟨i, hvi'⟩
    · have hV := hcl.1 v hvd
      obtain ⟨ks, qc, w, k1, k2, k3, k4, k5, k6, k7, k8, k9⟩ := hV.kids
      have hlow : ∀ x ∈ below h (.inner d ch) c v, ∃ k ∈ ks, x ∈ below h (.inner d ch) c k := by
        rintro x ⟨a, h1, h2⟩
        rcases ReflTransGen.cases_tail h2 with rfl | ⟨k, hk, hkv⟩
        · exfalso
          obtain ⟨j, hj⟩ := piece_inner.1 h1
          exact hd3 _ hvd _ (List.mem_flatMap.2 ⟨j, List.mem_finRange j, leafAddrs_sub (xing_mem hj)⟩) rfl
        · exact ⟨k, (k3 k).2 hkv, a, h1, hk⟩
      have hkid : ∀ k ∈ ks, ∃ c1, (Dyadic c c1 ∧ c1.k < c.k) ∧ VertexFit env g options c1 (below h (.inner d ch) c k) (fitAt h k) ∧ ∃ u, h[k]? = some u ∧ u.qef ≠ none := by
        intro k hk
        obtain ⟨i, hi⟩ := k4 k hk
        obtain ⟨⟨c1, a1, a2, -, a3⟩, a4⟩ := ihi i k hi
        refine ⟨c1, ⟨dyadic_octant ht.1 i a1, ?_⟩, by rw [hbel i k hi]; exact a2, a4⟩
        have h1 := dyadic_k a1
        have h2 : (c.octant i).k = c.k - 1 := rfl
        have h3 := ht.1
        omega
      have hne : Nonempty Cube := ⟨c⟩
      choose! C hC using hkid
      have hst : qefsOf h ks = ks.map fun k => (fitAt h k).state := by
        have : ∀ L : List Nat, (∀ k ∈ L, ∃ u, h[k]? = some u ∧ u.qef ≠ none) → qefsOf h L = L.map fun k => (fitAt h k).state := by
          intro L hL
          induction L with
          | nil => rfl
          | cons k L ihL =>
            obtain ⟨u, hu, hq⟩ := hL k List.mem_cons_self
            obtain ⟨st, hst⟩ := Option.ne_none_iff_exists'.1 hq
            have := ihL fun k hk => hL k (List.mem_cons_of_mem _ hk)
            unfold qefsOf at this ⊢
            rw [List.filterMap_cons, hu]
            simp only [Option.bind_some, hst, List.map_cons]
            rw [this]
            simp only [fitAt, hu, hst, Option.getD_some]
        exact this ks fun k hk => (hC k hk).2.2
      refine ⟨⟨c, Dyadic.root, ?_, fun hl => ?_, ?_⟩, w, k6, ?_⟩
      rotate_left
      · exfalso
        obtain ⟨j, hj⟩ := mem_leafAddrs_inner.1 hl
        exact hd3 _ hvd _ (List.mem_flatMap.2 ⟨j, List.mem_finRange j, leafAddrs_sub hj⟩) rfl
      rotate_right
      · refine VertexFit.node (kids := ks.map fun k => (C k, below h (.inner d ch) c k, fitAt h k)) (q1 := qc) ?_ ?_ ?_ ?_ ?_ ?_ (boxFit_of k6 k7) ?_ ?_
        · simpa using k1
        · intro k hk
          obtain ⟨k, hk', rfl⟩ := List.mem_map.1 hk
          exact (hC k hk').2.1
        · intro k hk
          obtain ⟨k, hk', rfl⟩ := List.mem_map.1 hk
          exact (hC k hk').1
        · rw [List.pairwise_map]
          refine List.Pairwise.imp_of_mem ?_ k2
          rintro a b ha hb hne x ⟨y, hy1, hy2⟩ ⟨z, hz1, hz2⟩
          cases xing_unique ht hy1 hz1
          have hpa := (k3 a).1 ha
          have hpb := (k3 b).1 hb
          have key : ∀ a b, Par h a v → Par h b v → Anc h a b → a = b := by
            intro a b hpa hpb hab
            rcases ReflTransGen.cases_head hab with rfl | ⟨z, hz, hzb⟩
            · rfl
            · cases par_fun hpa hz
              have := anc_le ok hzb
              have := ok _ _ hpb
              omega
          rcases anc_chain hy2 hz2 with h5 | h5
          · exact hne (key _ _ hpa hpb h5)
          · exact hne (key _ _ hpb hpa h5).symm
        · intro x
          constructor
          · intro hx
            obtain ⟨k, hk, hxk⟩ := hlow x hx
            exact ⟨_, List.mem_map.2 ⟨k, hk, rfl⟩, hxk⟩
          · rintro ⟨k, hk, hxk⟩
            obtain ⟨k, hk', rfl⟩ := List.mem_map.1 hk
            obtain ⟨a, h1, h2⟩ := hxk
            exact ⟨a, h1, h2.tail ((k3 k).1 hk')⟩
        · rw [List.map_map]
          unfold jointQef at k5
          rw [hst, List.map_map] at k5
          exact k5
        · rw [List.map_map]
          have : ks.map ((fun k => k.2.2.normal) ∘ fun k => (C k, below h (.inner d ch) c k, fitAt h k)) = ks.map (vnormalAt h) := by
            apply List.map_congr_left
            intro k hk
            obtain ⟨u, hu, -⟩ := (hC k hk).2.2
            simp only [Function.comp, fitAt, vnormalAt, hu, Option.map_some, Option.getD_some]
          rw [this, ← k8]
          unfold fitAt; rw [k6]
        · rw [List.map_map]
          have : ks.map ((fun k => k.2.2.material) ∘ fun k => (C k, below h (.inner d ch) c k, fitAt h k)) = ks.map (vmatAt h) := by
            apply List.map_congr_left
            intro k hk
            obtain ⟨u, hu, -⟩ := (hC k hk).2.2
            simp only [Function.comp, fitAt, vmatAt, hu, Option.map_some, Option.getD_some]
          rw [this]
          unfold fitAt; rw [k6]
          exact k9
      · rintro x ⟨a, ha, hav⟩
        refine ⟨(xing_in ht hin ha).1, ?_⟩
        rintro y ⟨b, hb, hbv⟩
        exact (linked_pieces ht hin hn ha hb).1 (hV.linked a (xing_mem ha) b (xing_mem hb) hav hbv)
      · obtain ⟨q2, x, qs, a1, a2, a3, a4, a5⟩ := k7
        rw [a5]; simp
    · obtain ⟨⟨c1, a1, a2, a0, a3⟩, a4⟩ := ihi i v hvi'
      rw [hbel i v hvi']
      refine ⟨⟨c1, dyadic_octant ht.1 i a1, a2, fun hl => ?_, a3⟩, a4⟩
      obtain ⟨j, hj⟩ := mem_leafAddrs_inner.1 hl
      cases hdis i j v hvi' (leafAddrs_sub hj)
      exact a0 hj

end Isomesh
