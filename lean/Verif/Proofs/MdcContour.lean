import Verif.Proofs.MdcRun
import Verif.Proofs.DcContour2

/-! `contour` of a clustered `MDC_Octree`. -/

namespace Isomesh
open Spec Relation

set_option linter.unusedSectionVars false
variable {K : Type} [Add K] [_root_.Sub K] [Mul K] [Div K] [Neg K] [Zero K] [One K] [OfNat K 2] [OfScientific K] [NatCast K] [IntCast K]
  [Fabs K] [Elem K] [LinearOrder K] [RoundedLaws K]

variable {env : DcEnv K} {g : Grid K} {options : Qef K 3}

/-! ### Order of the vertices -/

/-- Parents come earlier. -/
def Sorted (h : MdcHeap K) : List Nat → List Nat → Prop
  | _, [] => True
  | up, a :: L => (∀ b, Par h a b → b ∈ up) ∧ Sorted h (up ++ [a]) L

theorem sorted_mono {h : MdcHeap K} : ∀ {L up up' : List Nat}, (∀ a ∈ up, a ∈ up') → Sorted h up L → Sorted h up' L := by
  intro L
  induction L with
  | nil => intro _ _ _ _; trivial
  | cons a L ih =>
    intro up up' hs h1
    refine ⟨fun b hb => hs b (h1.1 b hb), ih ?_ h1.2⟩
    intro x hx
    rcases List.mem_append.1 hx with h | h
    · exact List.mem_append_left _ (hs x h)
    · exact List.mem_append_right _ h

theorem sorted_append {h : MdcHeap K} : ∀ {L1 L2 up : List Nat}, Sorted h up L1 → Sorted h (up ++ L1) L2 → Sorted h up (L1 ++ L2) := by
  intro L1
  induction L1 with
  | nil => intro L2 up _ h2; simpa using h2
  | cons a L ih =>
    intro L2 up h1 h2
    refine ⟨h1.1, ih h1.2 ?_⟩
    simpa using h2

theorem sorted_flatMap {h : MdcHeap K} {ι : Type} (f : ι → List Nat) : ∀ {is : List ι} {up : List Nat}, (∀ i ∈ is, Sorted h up (f i)) → Sorted h up (is.flatMap f) := by
  intro is
  induction is with
  | nil => intro up _; trivial
  | cons i is ih =>
    intro up hi
    rw [List.flatMap_cons]
    refine sorted_append (hi i (by simp)) (ih fun j hj => sorted_mono (fun a ha => List.mem_append_left _ ha) (hi j (by simp [hj])))

theorem sorted_all {h : MdcHeap K} : ∀ {L up : List Nat}, (∀ a ∈ L, ∀ b, Par h a b → b ∈ up) → Sorted h up L := by
  intro L
  induction L with
  | nil => intro _ _; trivial
  | cons a L ih =>
    intro up hL
    exact ⟨hL a (by simp), ih fun x hx b hb => List.mem_append_left _ (hL x (by simp [hx]) b hb)⟩

theorem ordered_sorted {h : MdcHeap K} : ∀ {t : MdcNode} {up : List Nat}, Ordered h up t → Sorted h up (addrs t) := by
  intro t
  induction t with
  | leaf l => intro up ho; exact sorted_all ho
  | inner d ch ih =>
    intro up ho
    exact sorted_append (sorted_all ho.1) (sorted_flatMap _ fun i _ => ih i (ho.2 i))

/-! ### Visible vertices -/

/-- `m_error`. -/
noncomputable def errAt (h : MdcHeap K) (a : Nat) : K := ((h[a]?).map (·.error)).getD 0

open Classical in
/-- Whether `addVerticesToMesh` marks a vertex as collapsible. -/
noncomputable def collC (h : MdcHeap K) (t : MdcNode) (ε : K) (a : Nat) : Bool := decide (a ∈ leafAddrs t ∨ errAt h a ≤ ε)

/-- Highest marked vertex above `a`. -/
def VisC (h : MdcHeap K) (C : Nat → Bool) (a r : Nat) : Prop := Anc h a r ∧ C r = true ∧ ∀ q, TransGen (Par h) r q → C q = false

open Classical in
/-- The vertex is output. -/
noncomputable def visible (h : MdcHeap K) (C : Nat → Bool) (a : Nat) : Bool := decide (C a = true ∧ ∀ q, TransGen (Par h) a q → C q = false)

theorem visC_visible {h : MdcHeap K} {C : Nat → Bool} {a r : Nat} (hv : VisC h C a r) : visible h C r = true := by
  unfold visible; classical exact decide_eq_true hv.2

theorem visible_iff {h : MdcHeap K} {C : Nat → Bool} {r : Nat} : visible h C r = true ↔ VisC h C r r := by
  classical
  unfold visible
  rw [decide_eq_true_iff]
  exact ⟨fun h1 => ⟨ReflTransGen.refl, h1⟩, fun h1 => h1.2⟩

theorem visC_unique {h : MdcHeap K} {C : Nat → Bool} {a r r' : Nat} (h1 : VisC h C a r) (h2 : VisC h C a r') : r = r' := by
  have key : ∀ r r', VisC h C a r → VisC h C a r' → Anc h r r' → r = r' := by
    intro r r' h1 h2 h3
    rcases reflTransGen_iff_eq_or_transGen.1 h3 with e | h4
    · exact e.symm
    · have := h1.2.2 _ h4
      rw [h2.2.1] at this; cases this
  rcases anc_chain h1.1 h2.1 with h3 | h3
  · exact key r r' h1 h2 h3
  · exact (key r' r h2 h1 h3).symm

/-- The vertex put into the mesh. -/
noncomputable def vdata (h : MdcHeap K) (a : Nat) : MeshVertex K :=
  match h[a]? with
  | some v => ⟨v.position, v.normal, v.material⟩
  | none => ⟨⟨0, 0, 0⟩, ⟨0, 0, 0⟩, .Empty⟩

/-- The list of output vertices. -/
noncomputable def visList (h : MdcHeap K) (C : Nat → Bool) (L : List Nat) : List Nat := L.filter (visible h C)

/-- `m_vertexIdx`. -/
noncomputable def visIdx (h : MdcHeap K) (C : Nat → Bool) (L : List Nat) (a : Nat) : Nat := if visible h C a then (visList h C L).idxOf a else kBadIndex

/-- The heap after the vertices in `pre` have been treated. -/
noncomputable def markH (h : MdcHeap K) (C : Nat → Bool) (L pre : List Nat) : MdcHeap K :=
  h.mapIdx fun a v => if a ∈ pre then { v with collapsible := C a, vertexIdx := visIdx h C L a } else v

theorem markH_get (h : MdcHeap K) (C : Nat → Bool) (L pre : List Nat) (a : Nat) : (markH h C L pre)[a]? = (h[a]?).map fun v =>
    if a ∈ pre then { v with collapsible := C a, vertexIdx := visIdx h C L a } else v := by
  unfold markH; rw [List.getElem?_mapIdx]

theorem markH_length (h : MdcHeap K) (C : Nat → Bool) (L pre : List Nat) : (markH h C L pre).length = h.length := by unfold markH; rw [List.length_mapIdx]

/-- Heaps with the same links. -/
theorem par_of_parent {h h' : MdcHeap K} (hp : ∀ a : Nat, (h'[a]?).map (·.parent) = (h[a]?).map (·.parent)) (a b : Nat) : Par h' a b ↔ Par h a b := by
  have key : ∀ k : MdcHeap K, Par k a b ↔ (k[a]?).map (·.parent) = some (some b) := by
    intro k
    unfold Par
    cases k[a]? with
    | none => simp
    | some v => simp
  rw [key, key, hp]

theorem markH_parent (h : MdcHeap K) (C : Nat → Bool) (L pre : List Nat) (a : Nat) : ((markH h C L pre)[a]?).map (·.parent) = (h[a]?).map (·.parent) := by
  rw [markH_get]
  cases h[a]? with
  | none => rfl
  | some v =>
    simp only [Option.map_some]
    split <;> rfl

theorem heapOK_of_parent {h h' : MdcHeap K} (hp : ∀ a : Nat, (h'[a]?).map (·.parent) = (h[a]?).map (·.parent)) (hl : h'.length = h.length) (ok : HeapOK h) : HeapOK h' := by
  intro a b hab
  rw [hl]
  exact ok a b ((par_of_parent hp a b).1 hab)

theorem par_eq_of_parent {h h' : MdcHeap K} (hp : ∀ a : Nat, (h'[a]?).map (·.parent) = (h[a]?).map (·.parent)) : Par h' = Par h := by
  funext a b; exact propext (par_of_parent hp a b)

theorem trans_of_parent {h h' : MdcHeap K} (hp : ∀ a : Nat, (h'[a]?).map (·.parent) = (h[a]?).map (·.parent)) (a b : Nat) :
    TransGen (Par h') a b ↔ TransGen (Par h) a b := by rw [par_eq_of_parent hp]

theorem anc_of_parent {h h' : MdcHeap K} (hp : ∀ a : Nat, (h'[a]?).map (·.parent) = (h[a]?).map (·.parent)) (a b : Nat) :
    Anc h' a b ↔ Anc h a b := by unfold Anc; rw [par_eq_of_parent hp]

theorem markH_coll {h : MdcHeap K} {C : Nat → Bool} {L pre : List Nat} {a : Nat} (ha : a ∈ pre) (hl : a < h.length) : collAt (markH h C L pre) a = C a := by
  unfold collAt
  rw [markH_get, List.getElem?_eq_getElem hl]
  simp [ha]

theorem write_mapIdx {α : Type} {l : List α} {F G : Nat → α → α} {a : Nat} {x v : α} (hv : l[a]? = some v) (hF : ∀ i y, l[i]? = some y → i ≠ a → G i y = F i y)
    (hx : G a v = x) : write (l.mapIdx F) a x = some (l.mapIdx G) := by
  have ha := (List.getElem?_eq_some_iff.1 hv).1
  rw [DSU.write_lt _ (by rw [List.length_mapIdx]; exact ha)]
  congr 1
  apply List.ext_getElem?
  intro i
  rw [List.getElem?_set, List.getElem?_mapIdx, List.getElem?_mapIdx]
  by_cases hi : a = i
  · subst hi
    rw [if_pos rfl, if_pos (by rw [List.length_mapIdx]; exact ha), hv, ← hx]; rfl
  · rw [if_neg hi]
    cases hy : l[i]? with
    | none => rfl
    | some y => rw [Option.map_some, Option.map_some, hF i y hy (Ne.symm hi)]

/-- Visiting one vertex. -/
theorem addVertex_step {h : MdcHeap K} (ok : HeapOK h) {C : Nat → Bool} {L pre post : List Nat} {a : Nat} {isLeaf : Bool} {ε : K} (hL : L = pre ++ a :: post)
    (hnd : L.Nodup) (hlt : ∀ x ∈ L, x < h.length) (hC : C a = if isLeaf then true else decide (errAt h a ≤ ε))
    (hclosed : ∀ x ∈ pre, ∀ b, Par h x b → b ∈ pre) (hpar : ∀ b, Par h a b → b ∈ pre) (hsz : (visList h C L).length ≤ 4294967295) :
    mdcAddVertex ε isLeaf (markH h C L pre, ⟨(visList h C pre).map (vdata h), []⟩) a =
      some (markH h C L (pre ++ [a]), ⟨(visList h C (pre ++ [a])).map (vdata h), []⟩) := by
  have haL : a ∈ L := by rw [hL]; simp
  have hal := hlt a haL
  have hap : a ∉ pre := by
    intro h1
    rw [hL, List.nodup_append] at hnd
    exact hnd.2.2 a h1 a (by simp) rfl
  have hv : h[a]? = some h[a] := List.getElem?_eq_getElem hal
  generalize h[a] = v at hv
  have hanc : ∀ q, TransGen (Par h) a q → q ∈ pre := by
    intro q hq
    induction hq with
    | single h1 => exact hpar _ h1
    | tail _ h2 ih => exact hclosed _ ih _ h2
  have hCv : (if isLeaf = true then true else decide (v.error ≤ ε)) = C a := by
    rw [hC]; unfold errAt; rw [hv]; rfl
  unfold mdcAddVertex
  rw [markH_get, hv]
  simp only [if_neg hap, Option.map_some, Option.bind_eq_bind, Option.bind_some, hCv]
  -- the heap with the new mark
  have hw1 : write (markH h C L pre) a { v with collapsible := C a } =
      some (h.mapIdx fun i y => if i ∈ pre then { y with collapsible := C i, vertexIdx := visIdx h C L i } else
        if i = a then { y with collapsible := C i } else y) := by
    unfold markH
    refine write_mapIdx hv ?_ ?_
    · intro i y _ hi
      by_cases h1 : i ∈ pre
      · rw [if_pos h1, if_pos h1]
      · rw [if_neg h1, if_neg h1, if_neg hi]
    · rw [if_neg hap, if_pos rfl]
  rw [hw1]
  simp only [Option.bind_some]
  generalize hH : (h.mapIdx fun i y => if i ∈ pre then ({ y with collapsible := C i, vertexIdx := visIdx h C L i } : MdcVertex K) else
        if i = a then { y with collapsible := C i } else y) = H
  have hHg : ∀ i : Nat, H[i]? = (h[i]?).map fun y => if i ∈ pre then { y with collapsible := C i, vertexIdx := visIdx h C L i } else
        if i = a then { y with collapsible := C i } else y := by
    intro i; rw [← hH, List.getElem?_mapIdx]
  have hHl : H.length = h.length := by rw [← hH, List.length_mapIdx]
  have hHp : ∀ i : Nat, (H[i]?).map (·.parent) = (h[i]?).map (·.parent) := by
    intro i
    rw [hHg]
    cases h[i]? with
    | none => rfl
    | some y =>
      simp only [Option.map_some]
      split
      · rfl
      · split <;> rfl
  have okH := heapOK_of_parent hHp hHl ok
  obtain ⟨b, hb1, hb2⟩ := hasCollapsible okH (v := v.parent) (fun p hp => by rw [hHl]; exact (ok a p ⟨v, hv, hp⟩).2)
  rw [hb1]
  simp only [Option.bind_some]
  have hbC : b = true ↔ ∃ q, TransGen (Par h) a q ∧ C q = true := by
    rw [hb2]
    have hcoll : ∀ q, q ∈ pre → collAt H q = C q := by
      intro q hq
      have hql : q < h.length := hlt q (by rw [hL]; simp [hq])
      unfold collAt
      rw [hHg, List.getElem?_eq_getElem hql]
      simp [hq]
    constructor
    · rintro ⟨p, hp, q, h1, h2⟩
      have h3 : TransGen (Par h) a q := TransGen.head' ⟨v, hv, hp⟩ ((anc_of_parent hHp p q).1 h1)
      exact ⟨q, h3, by rw [← hcoll q (hanc q h3)]; exact h2⟩
    · rintro ⟨q, h1, h2⟩
      obtain ⟨p, hp, h3⟩ := TransGen.head'_iff.1 h1
      obtain ⟨w, hw, hwp⟩ := hp
      rw [hv] at hw; cases hw
      exact ⟨p, hwp, q, (anc_of_parent hHp p q).2 h3, by rw [hcoll q (hanc q h1)]; exact h2⟩
  have hvis : (C a && !b) = visible h C a := by
    classical
    rw [Bool.eq_iff_iff, Bool.and_eq_true, Bool.not_eq_true', visible, decide_eq_true_iff]
    constructor
    · rintro ⟨h1, h2⟩
      refine ⟨h1, fun q hq => ?_⟩
      cases hq' : C q with
      | false => rfl
      | true => rw [hbC.2 ⟨q, hq, hq'⟩] at h2; cases h2
    · rintro ⟨h1, h2⟩
      refine ⟨h1, ?_⟩
      cases hb' : b with
      | false => rfl
      | true =>
        obtain ⟨q, hq, hq'⟩ := hbC.1 hb'
        rw [h2 q hq] at hq'; cases hq'
  have hpl : visList h C L = visList h C pre ++ visList h C (a :: post) := by rw [hL]; unfold visList; rw [List.filter_append]
  have hfin : ∀ idx, idx = visIdx h C L a → write H a { v with collapsible := C a, vertexIdx := idx } = some (markH h C L (pre ++ [a])) := by
    intro idx hidx
    rw [← hH]
    unfold markH
    refine write_mapIdx hv ?_ ?_
    · intro i y _ hi
      have : i ∈ pre ++ [a] ↔ i ∈ pre := by simp [hi]
      by_cases h1 : i ∈ pre
      · rw [if_pos h1, if_pos (this.2 h1)]
      · rw [if_neg h1, if_neg (fun h => h1 (this.1 h)), if_neg hi]
    · rw [if_pos (by simp), hidx]
  rw [hvis]
  by_cases hva : visible h C a = true
  · rw [if_pos hva]
    have hva' : visList h C (a :: post) = a :: visList h C post := by unfold visList; rw [List.filter_cons_of_pos hva]
    have hlen : (visList h C pre).length + 1 ≤ (visList h C L).length := by rw [hpl, hva']; simp
    unfold Mesh.addVertex
    dsimp only
    rw [if_pos (by rw [List.length_map]; omega)]
    simp only [Option.bind_some]
    have hidx : u32 (((visList h C pre).map (vdata h) ++ [(⟨v.position, v.normal, v.material⟩ : MeshVertex K)]).length - 1) = visIdx h C L a := by
      have hni : a ∉ visList h C pre := fun h1 => hap (List.mem_filter.1 h1).1
      unfold visIdx
      rw [if_pos hva, hpl, hva', List.idxOf_append_of_notMem hni, List.idxOf_cons_self, List.length_append, List.length_map]
      simp only [List.length_singleton, Nat.add_sub_cancel, add_zero]
      unfold u32
      exact Nat.mod_eq_of_lt (by omega)
    rw [hidx, hfin _ rfl]
    simp only [Option.bind_some]
    have : visList h C (pre ++ [a]) = visList h C pre ++ [a] := by unfold visList; rw [List.filter_append, List.filter_cons_of_pos hva, List.filter_nil]
    rw [this, List.map_append, List.map_cons, List.map_nil]
    unfold vdata
    rw [hv]
  · rw [if_neg hva, hfin kBadIndex (by unfold visIdx; rw [if_neg hva])]
    simp only [Option.bind_some]
    have : visList h C (pre ++ [a]) = visList h C pre := by
      unfold visList; rw [List.filter_append, List.filter_cons_of_neg hva, List.filter_nil, List.append_nil]
    rw [this]

theorem addVertex_loop {h : MdcHeap K} (ok : HeapOK h) {C : Nat → Bool} {L : List Nat} {ε : K} (hnd : L.Nodup) (hlt : ∀ x ∈ L, x < h.length)
    (hsz : (visList h C L).length ≤ 4294967295) : ∀ (post : List (Bool × Nat)) (pre : List Nat), L = pre ++ post.map (·.2) →
    (∀ x ∈ post, C x.2 = if x.1 then true else decide (errAt h x.2 ≤ ε)) →
    (∀ x ∈ pre, ∀ b, Par h x b → b ∈ pre) → Sorted h pre (post.map (·.2)) →
    post.foldlM (fun s x => mdcAddVertex ε x.1 s x.2) (markH h C L pre, ⟨(visList h C pre).map (vdata h), []⟩) =
      some (markH h C L L, ⟨(visList h C L).map (vdata h), []⟩) := by
  intro post
  induction post with
  | nil =>
    intro pre hL _ _ _
    rw [List.map_nil, List.append_nil] at hL
    subst hL
    rfl
  | cons x post ih =>
    intro pre hL hC hcl hs
    rw [List.map_cons] at hL hs
    rw [List.foldlM_cons, addVertex_step ok hL hnd hlt (hC x (by simp)) hcl hs.1 hsz, Option.bind_eq_bind, Option.bind_some]
    refine ih (pre ++ [x.2]) (by rw [hL]; simp) (fun y hy => hC y (by simp [hy])) ?_ hs.2
    intro y hy b hb
    rcases List.mem_append.1 hy with h1 | h1
    · exact List.mem_append_left _ (hcl y h1 b hb)
    · rw [List.mem_singleton] at h1
      subst h1
      exact List.mem_append_left _ (hs.1 b hb)

/-- The vertices in the order of the traversal, with a flag for leaves. -/
def flagged : MdcNode → List (Bool × Nat)
  | .leaf l => l.verts.map fun a => (true, a)
  | .inner d ch => d.2.map (fun a => (false, a)) ++ (List.finRange 8).flatMap fun i => flagged (ch i)

theorem flagged_addrs (t : MdcNode) : (flagged t).map (·.2) = addrs t := by
  induction t with
  | leaf l => simp [flagged, addrs]
  | inner d ch ih =>
    rw [flagged, addrs_inner, List.map_append, List.map_map, List.map_flatMap]
    congr 1
    · simp
    · congr 1; funext i; exact ih i

theorem foldlM_flatMap {S α ι : Type} (f : S → α → Option S) (F : ι → List α) : ∀ (is : List ι) (s : S),
    is.foldlM (fun s i => (F i).foldlM f s) s = (is.flatMap F).foldlM f s := by
  intro is
  induction is with
  | nil => intro s; rfl
  | cons i is ih =>
    intro s
    rw [List.flatMap_cons, List.foldlM_append, List.foldlM_cons]
    simp only [ih]

theorem mdcAddVertices_flat (ε : K) : ∀ (t : MdcNode) (s : MdcHeap K × Mesh K), mdcAddVertices ε t s = (flagged t).foldlM (fun s x => mdcAddVertex ε x.1 s x.2) s := by
  intro t
  induction t with
  | leaf l => intro s; rw [mdcAddVertices, flagged, List.foldlM_map]
  | inner d ch ih =>
    intro s
    rw [mdcAddVertices, flagged, List.foldlM_append, List.foldlM_map]
    simp only [ih, foldlM_flatMap]

theorem leaf_noPar {h : MdcHeap K} : ∀ {t : MdcNode} {c : Cube}, Clustered env options h t c → ∀ a ∈ leafAddrs t, ∀ b, ¬ Par h b a := by
  intro t
  induction t with
  | leaf l => intro c hc a ha b hb; exact (hc a (by simpa [leafAddrs, Oct.leaves] using ha)).2 b hb
  | inner d ch ih =>
    intro c hc a ha b hb
    obtain ⟨i, hi⟩ := mem_leafAddrs_inner.1 ha
    exact ih i (hc.2 i) a hi b hb

theorem flagged_spec {h : MdcHeap K} : ∀ {t : MdcNode} {c : Cube}, Clustered env options h t c → ∀ x ∈ flagged t,
    (x.1 = true → x.2 ∈ leafAddrs t) ∧ (x.1 = false → ∃ y, Par h y x.2) := by
  intro t
  induction t with
  | leaf l =>
    intro c hc x hx
    rw [flagged, List.mem_map] at hx
    obtain ⟨a, ha, rfl⟩ := hx
    exact ⟨fun _ => by simpa [leafAddrs, Oct.leaves] using ha, fun h => absurd h (by simp)⟩
  | inner d ch ih =>
    intro c hc x hx
    rw [flagged, List.mem_append, List.mem_map, List.mem_flatMap] at hx
    rcases hx with ⟨a, ha, rfl⟩ | ⟨i, -, hi⟩
    · refine ⟨fun h => absurd h (by simp), fun _ => ?_⟩
      obtain ⟨-, ⟨ks, qc, w, k1, -, k3, -⟩, -⟩ := hc.1 a ha
      obtain ⟨y, hy⟩ := List.exists_mem_of_ne_nil _ k1
      exact ⟨y, (k3 y).1 hy⟩
    · obtain ⟨h1, h2⟩ := ih i (hc.2 i) x hi
      exact ⟨fun h => mem_leafAddrs_inner.2 ⟨i, h1 h⟩, h2⟩

/-- Each vertex of a leaf is represented by exactly one output vertex. -/
theorem visC_exists {h : MdcHeap K} (ok : HeapOK h) {C : Nat → Bool} {a : Nat} (ha : a < h.length) (hC : C a = true) : ∃ r, VisC h C a r := by
  induction hn : h.length - a using Nat.strong_induction_on generalizing a with
  | _ n ih =>
    by_cases hex : ∃ q, TransGen (Par h) a q ∧ C q = true
    · obtain ⟨q, h1, h2⟩ := hex
      have h3 := trans_lt ok h1
      have h4 := anc_lt_length ok h1.to_reflTransGen ha
      obtain ⟨r, h5, h6⟩ := ih (h.length - q) (by omega) h4 h2 rfl
      exact ⟨r, h1.to_reflTransGen.trans h5, h6⟩
    · refine ⟨a, ReflTransGen.refl, hC, fun q hq => ?_⟩
      cases hq' : C q with
      | false => rfl
      | true => exact absurd ⟨q, hq, hq'⟩ hex

theorem visList_length {h : MdcHeap K} {t : MdcNode} {c : Cube} (cl : Clustered env options h t c) (hn : (addrs t).Nodup) (C : Nat → Bool) :
    (visList h C (addrs t)).length ≤ (leafAddrs t).length := by
  have hex : ∀ x ∈ visList h C (addrs t), ∃ a ∈ leafAddrs t, VisC h C a x := by
    intro x hx
    obtain ⟨h1, h2⟩ := List.mem_filter.1 hx
    obtain ⟨a, ha, hax⟩ := clustered_leaf cl h1
    exact ⟨a, ha, hax, (visible_iff.1 h2).2⟩
  choose! F hF1 hF2 using hex
  have hnd : ((visList h C (addrs t)).map F).Nodup := by
    refine (hn.filter _).map_on ?_
    intro x hx y hy hxy
    have h1 := hF2 x hx
    have h2 := hF2 y hy
    rw [hxy] at h1
    exact visC_unique h1 h2
  have := (List.subperm_of_subset hnd (l₂ := leafAddrs t) ?_).length_le
  · rwa [List.length_map] at this
  · intro a ha
    obtain ⟨x, hx, rfl⟩ := List.mem_map.1 ha
    exact hF1 x hx

theorem addVertices_spec {h : MdcHeap K} {t : MdcNode} {c : Cube} (ok : HeapOK h) (cl : Clustered env options h t c) (ho : Ordered h [] t) (hn : (addrs t).Nodup)
    (hsz : (leafAddrs t).length ≤ 4294967295) (ε : K) :
    mdcAddVertices ε t (h, Mesh.new) = some (markH h (collC h t ε) (addrs t) (addrs t), ⟨(visList h (collC h t ε) (addrs t)).map (vdata h), []⟩) := by
  have := addVertex_loop ok (C := collC h t ε) (ε := ε) hn (fun x hx => clustered_lt cl hx) ((visList_length cl hn _).trans hsz) (flagged t) []
    (by rw [flagged_addrs]; rfl) ?_ (by simp) (by rw [flagged_addrs]; exact ordered_sorted ho)
  · rw [mdcAddVertices_flat]
    have e : markH h (collC h t ε) (addrs t) [] = h := by
      apply List.ext_getElem?
      intro i
      rw [markH_get]
      simp
    rw [e] at this
    exact this
  · intro x hx
    obtain ⟨h1, h2⟩ := flagged_spec cl x hx
    unfold collC
    cases hb : x.1 with
    | true => rw [if_pos rfl]; exact decide_eq_true (Or.inl (h1 hb))
    | false =>
      rw [if_neg (by simp)]
      obtain ⟨y, hy⟩ := h2 hb
      have : x.2 ∉ leafAddrs t := fun h3 => leaf_noPar cl _ h3 y hy
      rw [decide_eq_decide]
      exact ⟨fun h => h.resolve_left this, Or.inr⟩

end Isomesh
