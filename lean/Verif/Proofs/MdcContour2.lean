import Verif.Proofs.MdcContour

/-! The calls of `contour` of an `MDC_Octree`, and repeated calls. -/

namespace Isomesh
open Spec Relation

set_option linter.unusedSectionVars false
variable {K : Type} [Add K] [_root_.Sub K] [Mul K] [Div K] [Neg K] [Zero K] [One K] [OfNat K 2] [OfScientific K] [NatCast K] [IntCast K]
  [Fabs K] [Elem K] [LinearOrder K] [RoundedLaws K]

variable {env : DcEnv K} {g : Grid K} {options : Qef K 3}

/-! ### Heaps differing in the marks only -/

/-- A vertex without the marks of `contour`. -/
def MdcVertex.strip (v : MdcVertex K) : MdcVertex K := { v with collapsible := true, vertexIdx := 0 }

/-- The heaps differ in the marks of `contour` only. -/
def Same (h h' : MdcHeap K) : Prop := ∀ a : Nat, (h'[a]?).map MdcVertex.strip = (h[a]?).map MdcVertex.strip

theorem same_refl (h : MdcHeap K) : Same h h := fun _ => rfl

theorem same_trans {h1 h2 h3 : MdcHeap K} (a : Same h1 h2) (b : Same h2 h3) : Same h1 h3 := fun x => (b x).trans (a x)

theorem same_symm {h1 h2 : MdcHeap K} (a : Same h1 h2) : Same h2 h1 := fun x => (a x).symm

theorem same_get {h h' : MdcHeap K} (hs : Same h h') {a : Nat} {v : MdcVertex K} (hv : h[a]? = some v) : ∃ v', h'[a]? = some v' ∧ v'.strip = v.strip := by
  have := hs a
  rw [hv] at this
  cases hv' : h'[a]? with
  | none => rw [hv'] at this; cases this
  | some v' => rw [hv', Option.map_some, Option.map_some, Option.some.injEq] at this; exact ⟨v', rfl, this⟩

theorem same_field {h h' : MdcHeap K} (hs : Same h h') {β : Type} (F : MdcVertex K → β) (hF : ∀ v, F v.strip = F v) (a : Nat) : (h'[a]?).map F = (h[a]?).map F := by
  have := congrArg (Option.map F) (hs a)
  rw [Option.map_map, Option.map_map] at this
  have e : F ∘ MdcVertex.strip = F := funext hF
  rwa [e] at this

theorem same_length {h h' : MdcHeap K} (hs : Same h h') : h'.length = h.length := by
  have key : ∀ {h h' : MdcHeap K}, Same h h' → h.length ≤ h'.length := by
    intro h h' hs
    by_contra hcon
    have hlt : h'.length < h.length := by omega
    have := hs h'.length
    rw [List.getElem?_eq_none (le_refl _), List.getElem?_eq_getElem hlt] at this
    cases this
  exact le_antisymm (key (same_symm hs)) (key hs)

theorem same_parent {h h' : MdcHeap K} (hs : Same h h') (a : Nat) : (h'[a]?).map (·.parent) = (h[a]?).map (·.parent) := same_field hs _ (fun _ => rfl) a

theorem same_par {h h' : MdcHeap K} (hs : Same h h') : Par h' = Par h := par_eq_of_parent (same_parent hs)

theorem same_ok {h h' : MdcHeap K} (hs : Same h h') (ok : HeapOK h) : HeapOK h' := heapOK_of_parent (same_parent hs) (same_length hs) ok

theorem same_err {h h' : MdcHeap K} (hs : Same h h') : errAt h' = errAt h := by
  funext a
  unfold errAt
  rw [same_field hs (·.error) (fun _ => rfl) a]

theorem same_ordered {h h' : MdcHeap K} (hs : Same h h') : ∀ {t : MdcNode} {up : List Nat}, Ordered h up t → Ordered h' up t := by
  intro t
  induction t with
  | leaf l => intro up ho; unfold Ordered; rw [same_par hs]; exact ho
  | inner d ch ih =>
    intro up ho
    refine ⟨?_, fun i => ih i (ho.2 i)⟩
    rw [same_par hs]; exact ho.1

theorem same_joint {h h' : MdcHeap K} (hs : Same h h') (q : Qef K 3) (ks : List Nat) : jointQef h' env q ks = jointQef h env q ks := by
  have : qefsOf h' ks = qefsOf h ks := by
    unfold qefsOf
    congr 1
    funext x
    have := same_field hs (·.qef) (fun _ => rfl) x
    cases e1 : h'[x]? with
    | none => rw [e1] at this; cases e2 : h[x]? with
      | none => rfl
      | some v => rw [e2] at this; cases this
    | some v => rw [e1] at this; cases e2 : h[x]? with
      | none => rw [e2] at this; cases this
      | some w => rw [e2] at this; exact Option.some.inj this
  unfold jointQef
  rw [this]

theorem same_vmat {h h' : MdcHeap K} (hs : Same h h') : vmatAt h' = vmatAt h := by
  funext x; unfold vmatAt; rw [same_field hs (·.material) (fun _ => rfl) x]

theorem same_vnormal {h h' : MdcHeap K} (hs : Same h h') : vnormalAt h' = vnormalAt h := by
  funext x; unfold vnormalAt; rw [same_field hs (·.normal) (fun _ => rfl) x]

theorem same_vdata {h h' : MdcHeap K} (hs : Same h h') : vdata h' = vdata h := by
  funext x
  have := same_field hs (fun v => (⟨v.position, v.normal, v.material⟩ : MeshVertex K)) (fun _ => rfl) x
  unfold vdata
  cases e1 : h'[x]? with
  | none => rw [e1] at this; cases e2 : h[x]? with
    | none => rfl
    | some v => rw [e2] at this; cases this
  | some v => rw [e1] at this; cases e2 : h[x]? with
    | none => rw [e2] at this; cases this
    | some w => rw [e2] at this; exact Option.some.inj this

theorem same_vertOK {h h' : MdcHeap K} (hs : Same h h') {c : Cube} {t : MdcNode} {ch : Fin 8 → MdcNode} {v : Nat}
    (hv : VertOK env options h c t ch v) : VertOK env options h' c t ch v := by
  obtain ⟨hlt, ⟨ks, qc, w, k1, k2, k3, k4, k5, k6, k7, k8, k9⟩, hl⟩ := hv
  obtain ⟨w', e1, e2⟩ := same_get hs k6
  have hw : w'.position = w.position ∧ w'.error = w.error ∧ w'.qef = w.qef ∧ w'.normal = w.normal ∧ w'.material = w.material := by
    simp only [MdcVertex.strip, MdcVertex.mk.injEq] at e2
    tauto
  refine ⟨by rw [same_length hs]; exact hlt, ⟨ks, qc, w', k1, k2, by rw [same_par hs]; exact k3, k4, by rw [same_joint hs]; exact k5, e1, ?_, ?_, ?_⟩, ?_⟩
  · unfold Solved at k7 ⊢
    rw [hw.1, hw.2.1, hw.2.2.1]; exact k7
  · rw [hw.2.2.2.1, same_vnormal hs]; exact k8
  · rw [hw.2.2.2.2, same_vmat hs]; exact k9
  · unfold Anc; rw [same_par hs]; exact hl

theorem same_clustered {h h' : MdcHeap K} (hs : Same h h') : ∀ {t : MdcNode} {c : Cube}, Clustered env options h t c → Clustered env options h' t c := by
  intro t
  induction t with
  | leaf l =>
    intro c hc a ha
    rw [same_length hs, same_par hs]; exact hc a ha
  | inner d ch ih =>
    intro c hc
    exact ⟨fun v hv => same_vertOK hs (hc.1 v hv), fun i => ih i (hc.2 i)⟩

theorem same_top {h h' : MdcHeap K} (hs : Same h h') (ok : HeapOK h) {a : Nat} (ha : a < h.length) : topOf h' a = topOf h a := by
  refine topOf_eq (same_ok hs ok) (by rw [same_length hs]; exact ha) ?_
  have := topOf_top ok ha
  unfold IsTop Anc at *
  rw [same_par hs]; exact this

theorem markH_same (h : MdcHeap K) (C : Nat → Bool) (L pre : List Nat) : Same h (markH h C L pre) := by
  intro a
  rw [markH_get, Option.map_map]
  congr 1
  funext v
  simp only [Function.comp]
  split <;> rfl

/-! ### Calls -/

open Classical in
/-- The output vertex representing `a`. -/
noncomputable def visOf (h : MdcHeap K) (C : Nat → Bool) (a : Nat) : Nat := if hx : ∃ r, VisC h C a r then hx.choose else a

theorem visOf_spec {h : MdcHeap K} {C : Nat → Bool} {a : Nat} (hx : ∃ r, VisC h C a r) : VisC h C a (visOf h C a) := by
  unfold visOf
  rw [dif_pos hx]
  exact hx.choose_spec

theorem visOf_eq {h : MdcHeap K} {C : Nat → Bool} {a r : Nat} (hr : VisC h C a r) : visOf h C a = r := visC_unique (visOf_spec ⟨r, hr⟩) hr

/-- Good octrees: what `build` produces, and `contour` preserves. -/
structure MdcGood (env : DcEnv K) (g : Grid K) (options : Qef K 3) (h : MdcHeap K) (t : MdcNode) (c : Cube) : Prop where
  ok : HeapOK h
  tree : MTree g t c 0
  nodup : (addrs t).Nodup
  ordered : Ordered h [] t
  cl : Clustered env options h t c
  top : ∀ a ∈ leafAddrs t, ∀ b ∈ leafAddrs t, (topOf h a = topOf h b ↔ EqvGen (TreeRel t) a b)
  lnodup : (leafAddrs t).Nodup
  size : (leafAddrs t).length ≤ 4294967295
  verts : ∀ x ∈ (locate t c).leaves, ∀ s a, x.2.verts[s]? = some a → ∃ v0 v, LeafVert env g options x.1.lo x.2.corners s v0 ∧ h[a]? = some v ∧
    v.position = v0.position ∧ v.normal = v0.normal ∧ v.material = v0.material ∧ v.error = v0.error ∧ v.qef = v0.qef

theorem good_same {h h' : MdcHeap K} {t : MdcNode} {c : Cube} (hs : Same h h') (hg : MdcGood env g options h t c) : MdcGood env g options h' t c := by
  refine ⟨same_ok hs hg.ok, hg.tree, hg.nodup, same_ordered hs hg.ordered, same_clustered hs hg.cl, ?_, hg.lnodup, hg.size, ?_⟩
  · intro a ha b hb
    rw [same_top hs hg.ok (clustered_lt hg.cl (leafAddrs_sub ha)), same_top hs hg.ok (clustered_lt hg.cl (leafAddrs_sub hb))]
    exact hg.top a ha b hb
  · intro x hx s a ha
    obtain ⟨v0, v, h1, h2, h3⟩ := hg.verts x hx s a ha
    obtain ⟨v', e1, e2⟩ := same_get hs h2
    simp only [MdcVertex.strip, MdcVertex.mk.injEq] at e2
    obtain ⟨a1, a2, a3, -, a4, -, -, -, a5⟩ := e2
    exact ⟨v0, v', h1, e1, by rw [a1]; exact h3.1, by rw [a2]; exact h3.2.1, by rw [a3]; exact h3.2.2.1, by rw [a4]; exact h3.2.2.2.1, by rw [a5]; exact h3.2.2.2.2⟩

section
variable {h : MdcHeap K} {t : MdcNode} {c : Cube} (hg : MdcGood env g options h t c) (ε : K)
include hg

theorem collC_leaf {a : Nat} (ha : a ∈ leafAddrs t) : collC h t ε a = true := by
  classical
  unfold collC
  exact decide_eq_true (Or.inl ha)

theorem vis_leaf {a : Nat} (ha : a ∈ leafAddrs t) : VisC h (collC h t ε) a (visOf h (collC h t ε) a) :=
  visOf_spec (visC_exists hg.ok (clustered_lt hg.cl (leafAddrs_sub ha)) (collC_leaf hg ε ha))

theorem visOf_mem {a : Nat} (ha : a ∈ leafAddrs t) : visOf h (collC h t ε) a ∈ visList h (collC h t ε) (addrs t) := by
  have hv := vis_leaf hg ε ha
  exact List.mem_filter.2 ⟨ordered_anc hg.ordered (leafAddrs_sub ha) hv.1, visC_visible hv⟩

/-- The heap with the marks. -/
theorem marked_highest {a : Nat} (ha : a ∈ leafAddrs t) :
    highestCollapsibleAncestor (markH h (collC h t ε) (addrs t) (addrs t)) a = some (some (visOf h (collC h t ε) a)) := by
  have hs := markH_same h (collC h t ε) (addrs t) (addrs t)
  have hal := clustered_lt hg.cl (leafAddrs_sub ha)
  have hcoll : ∀ q ∈ addrs t, collAt (markH h (collC h t ε) (addrs t) (addrs t)) q = collC h t ε q := fun q hq => markH_coll hq (clustered_lt hg.cl hq)
  obtain ⟨r, h1, h2⟩ := highestCollapsible (same_ok hs hg.ok) (a := a) (by rw [same_length hs]; exact hal)
    (by rw [hcoll a (leafAddrs_sub ha)]; exact collC_leaf hg ε ha)
  rw [h2]
  congr 2
  symm
  apply visOf_eq
  unfold Vis Anc at h1
  rw [same_par hs] at h1
  have hr : r ∈ addrs t := ordered_anc hg.ordered (leafAddrs_sub ha) h1.1
  refine ⟨h1.1, by rw [← hcoll r hr]; exact h1.2.1, fun q hq => ?_⟩
  rw [← hcoll q (ordered_anc hg.ordered hr hq.to_reflTransGen)]
  exact h1.2.2 q hq

theorem marked_idx {a : Nat} (ha : a ∈ leafAddrs t) :
    mdcMeshIdx (markH h (collC h t ε) (addrs t) (addrs t)) (visOf h (collC h t ε) a) =
      some ((visList h (collC h t ε) (addrs t)).idxOf (visOf h (collC h t ε) a)) := by
  have hm := List.mem_filter.1 (visOf_mem hg ε ha)
  unfold mdcMeshIdx
  rw [markH_get, List.getElem?_eq_getElem (clustered_lt hg.cl hm.1), Option.map_some, Option.map_some, if_pos hm.1]
  dsimp only
  unfold visIdx
  rw [if_pos hm.2]

theorem edgeLoop_eq {D : Axis} {l : Fin 4 → MdcLeaf} {A : Fin 4 → Nat}
    (hA : ∀ i, ∃ s : Nat, mdcSetIndex (l i).mask (sharedEdge D i) = some (s : Int) ∧ (l i).verts[s]? = some (A i)) (hlt : ∀ i, A i ∈ leafAddrs t) :
    ∀ is : List (Fin 4), mdcEdgeLoop D l (markH h (collC h t ε) (addrs t) (addrs t)) is = some (some (is.map fun i => visOf h (collC h t ε) (A i))) := by
  intro is
  induction is with
  | nil => rfl
  | cons i is ih =>
    obtain ⟨s, h1, h2⟩ := hA i
    have hs := (List.getElem?_eq_some_iff.1 h2).1
    rw [mdcEdgeLoop]
    simp only [h1, Option.bind_eq_bind, Option.bind_some]
    rw [if_neg (by simp only [Int.toNat_natCast]; omega), Int.toNat_natCast, h2]
    simp only [Option.bind_some, marked_highest hg ε (hlt i), ih]
    rfl

theorem mdcFlip_eq {D : Axis} {p : IVec3} {l : Fin 4 → MdcLeaf} (hl : ∀ i, MLeafOK g (Spec.edgeCorner D p 1 i) (l i)) :
    mdcFlip D l = !(solidAt g p) := by
  unfold mdcFlip
  generalize mdcDeepest l = i
  have e : (Fin.ofNat 12 (sharedEdge D i) : Fin 12) = sharedNo D i := by
    apply Fin.ext
    show sharedEdge D i % 12 = sharedEdge D i
    exact Nat.mod_eq_of_lt (shared_lt D i)
  dsimp only
  rw [e]
  have hc := (hl i).corners (cellEdgeEnd (sharedNo D i) 0)
  have hp := shared_pos D p i
  unfold mdcPos at hp
  rw [hp] at hc
  rw [solid_of hc]
  by_cases h1 : (l i).corners (cellEdgeEnd (sharedNo D i) 0) = .Empty <;> simp [h1]

theorem mdcCall_eq {D : Axis} {p : IVec3} {l : Fin 4 → MdcLeaf} (hl : ∀ i, MLeafOK g (Spec.edgeCorner D p 1 i) (l i)) {A : Fin 4 → Nat}
    (hA : CallTo (D, fun i => .leaf (l i)) A) (hlt : ∀ i, A i ∈ leafAddrs t) (mesh : Mesh K)
    (hv : mesh.vertices.length = (visList h (collC h t ε) (addrs t)).length) :
    mdcCall (markH h (collC h t ε) (addrs t) (addrs t)) mesh (D, fun i => .leaf (l i)) =
      some ⟨mesh.vertices, mesh.indices ++ flatTri (octQuad
        ((visList h (collC h t ε) (addrs t)).idxOf (visOf h (collC h t ε) (A 0))) ((visList h (collC h t ε) (addrs t)).idxOf (visOf h (collC h t ε) (A 1)))
        ((visList h (collC h t ε) (addrs t)).idxOf (visOf h (collC h t ε) (A 2))) ((visList h (collC h t ε) (addrs t)).idxOf (visOf h (collC h t ε) (A 3)))
        (solidAt g p))⟩ := by
  obtain ⟨l', e1, e2⟩ := hA
  have : l' = l := by
    funext i
    have := e1 i
    dsimp only at this
    injection this with this
    exact this.symm
  subst this
  have hidx : ∀ i, (visList h (collC h t ε) (addrs t)).idxOf (visOf h (collC h t ε) (A i)) < mesh.vertices.length := by
    intro i
    rw [hv]
    exact List.idxOf_lt_length_of_mem (visOf_mem hg ε (hlt i))
  have hl4 : (![l' 0, l' 1, l' 2, l' 3] : Fin 4 → MdcLeaf) = l' := by funext i; fin_cases i <;> rfl
  unfold mdcCall
  simp only [mdcLeafOf, Option.bind_eq_bind, Option.bind_some, hl4]
  unfold mdcEdgeLeaves
  rw [edgeLoop_eq hg ε e2 hlt]
  have hr : (List.finRange 4).map (fun i => visOf h (collC h t ε) (A i)) =
      [visOf h (collC h t ε) (A 0), visOf h (collC h t ε) (A 1), visOf h (collC h t ε) (A 2), visOf h (collC h t ε) (A 3)] := rfl
  simp only [hr, Option.bind_eq_bind, Option.bind_some, marked_idx hg ε (hlt _)]
  rw [mdcFlip_eq hg hl]
  exact dcOctQuad_eq (hidx 0) (hidx 1) (hidx 2) (hidx 3) _

theorem mdcCall_skip (hh : MdcHeap K) {call : Axis × (Fin 4 → MdcNode)} (hs : CallSkip call) (mesh : Mesh K) : mdcCall hh mesh call = some mesh := by
  obtain ⟨D, n⟩ := call
  obtain ⟨l, e1, s, e2, e3⟩ := hs
  have : n = fun i => Oct.leaf (l i) := funext e1
  subst this
  have hl4 : (![l 0, l 1, l 2, l 3] : Fin 4 → MdcLeaf) = l := by funext i; fin_cases i <;> rfl
  unfold mdcCall
  simp only [mdcLeafOf, Option.bind_eq_bind, Option.bind_some, hl4]
  unfold mdcEdgeLeaves
  have hf : List.finRange 4 = 0 :: [1, 2, 3] := rfl
  dsimp only at e3
  rw [hf, mdcEdgeLoop, e3]
  simp only [Option.bind_eq_bind, Option.bind_some]
  rw [if_pos (Or.inl e2)]
  rfl

end
end Isomesh
