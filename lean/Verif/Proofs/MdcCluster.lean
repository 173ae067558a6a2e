import Verif.Proofs.MdcTree
import Verif.Props.DSU

/-! Clustering of the vertices of one node of an `MDC_Octree`: collecting the vertices and merging their sets. -/

namespace Isomesh
open Relation

set_option linter.unusedSectionVars false
variable {K : Type} [Add K] [_root_.Sub K] [Mul K] [Div K] [Neg K] [Zero K] [One K] [OfNat K 2] [OfScientific K] [NatCast K] [IntCast K]
  [Fabs K] [Elem K] [LinearOrder K] [RoundedLaws K]

/-! ### Equivalence closures -/

section
variable {α : Type} {R R' : α → α → Prop}

theorem eqv_trans {a b c : α} (h1 : EqvGen R a b) (h2 : EqvGen R b c) : EqvGen R a c := EqvGen.trans _ _ _ h1 h2
theorem eqv_symm {a b : α} (h1 : EqvGen R a b) : EqvGen R b a := EqvGen.symm _ _ h1

/-- Inclusion of equivalence closures. -/
theorem eqv_sub (h : ∀ a b, R a b → EqvGen R' a b) {a b : α} (hab : EqvGen R a b) : EqvGen R' a b := by
  induction hab with
  | rel x y h1 => exact h _ _ h1
  | refl x => exact EqvGen.refl _
  | symm _ _ _ ih => exact eqv_symm ih
  | trans _ _ _ _ _ h1 h2 => exact eqv_trans h1 h2

theorem eqv_congr (h : ∀ a b, R a b → EqvGen R' a b) (h' : ∀ a b, R' a b → EqvGen R a b) (a b : α) : EqvGen R a b ↔ EqvGen R' a b :=
  ⟨eqv_sub h, eqv_sub h'⟩

/-- Adding one pair. -/
theorem eqv_add (x y a b : α) : EqvGen (fun c d => R c d ∨ (c = x ∧ d = y)) a b ↔
    EqvGen R a b ∨ (EqvGen R a x ∧ EqvGen R b y) ∨ (EqvGen R a y ∧ EqvGen R b x) := by
  have mono : ∀ {a b}, EqvGen R a b → EqvGen (fun c d => R c d ∨ (c = x ∧ d = y)) a b := fun h => eqv_sub (fun _ _ h => EqvGen.rel _ _ (Or.inl h)) h
  have last : EqvGen (fun c d => R c d ∨ (c = x ∧ d = y)) x y := EqvGen.rel _ _ (Or.inr ⟨rfl, rfl⟩)
  constructor
  · intro h
    induction h with
    | rel c d h =>
      rcases h with h | ⟨rfl, rfl⟩
      · exact Or.inl (EqvGen.rel _ _ h)
      · exact Or.inr (Or.inl ⟨EqvGen.refl _, EqvGen.refl _⟩)
    | refl c => exact Or.inl (EqvGen.refl _)
    | symm c d _ ih =>
      rcases ih with h | h | h
      · exact Or.inl (eqv_symm h)
      · exact Or.inr (Or.inr ⟨h.2, h.1⟩)
      · exact Or.inr (Or.inl ⟨h.2, h.1⟩)
    | trans c d e _ _ ih1 ih2 =>
      rcases ih1 with h | h | h <;> rcases ih2 with h' | h' | h'
      · exact Or.inl (eqv_trans h h')
      · exact Or.inr (Or.inl ⟨eqv_trans h h'.1, h'.2⟩)
      · exact Or.inr (Or.inr ⟨eqv_trans h h'.1, h'.2⟩)
      · exact Or.inr (Or.inl ⟨h.1, eqv_trans (eqv_symm h') h.2⟩)
      · exact Or.inr (Or.inl ⟨h.1, h'.2⟩)
      · exact Or.inl (eqv_trans h.1 (eqv_symm h'.2))
      · exact Or.inr (Or.inr ⟨h.1, eqv_trans (eqv_symm h') h.2⟩)
      · exact Or.inl (eqv_trans h.1 (eqv_symm h'.2))
      · exact Or.inr (Or.inr ⟨h.1, h'.2⟩)
  · rintro (h | ⟨h1, h2⟩ | ⟨h1, h2⟩)
    · exact mono h
    · exact eqv_trans (mono h1) (eqv_trans last (eqv_symm (mono h2)))
    · exact eqv_trans (mono h1) (eqv_trans (eqv_symm last) (eqv_symm (mono h2)))

/-- A class of an element that is not related to anything. -/
theorem eqv_out {P : α → Prop} (hR : ∀ a b, R a b → P a ∧ P b) {a b : α} (hab : EqvGen R a b) : a = b ∨ (P a ∧ P b) := by
  induction hab with
  | rel x y h1 => exact Or.inr (hR _ _ h1)
  | refl x => exact Or.inl rfl
  | symm _ _ _ ih => rcases ih with h | h; exacts [Or.inl h.symm, Or.inr h.symm]
  | trans _ _ _ _ _ h1 h2 =>
    rcases h1 with rfl | h1
    · exact h2
    · rcases h2 with rfl | h2
      · exact Or.inr h1
      · exact Or.inr ⟨h1.1, h2.2⟩

/-- The closure of the union of a relation with the classes `T` and of another one is the closure of the image of the
other one on the classes. -/
theorem eqv_quot {β : Type} {R1 R2 : α → α → Prop} {T : α → β} {S : α → Prop} (hT : ∀ a b, S a → S b → (T a = T b ↔ EqvGen R1 a b))
    (h1 : ∀ a b, R1 a b → S a ∧ S b) (h2 : ∀ a b, R2 a b → S a ∧ S b) {a b : α} (ha : S a) (hb : S b) :
    EqvGen (fun x y => R1 x y ∨ R2 x y) a b ↔ EqvGen (fun x y => ∃ c d, R2 c d ∧ T c = x ∧ T d = y) (T a) (T b) := by
  constructor
  · intro h
    have key : ∀ a b, EqvGen (fun x y => R1 x y ∨ R2 x y) a b → EqvGen (fun x y => ∃ c d, R2 c d ∧ T c = x ∧ T d = y) (T a) (T b) := by
      intro a b h
      induction h with
      | rel x y h =>
        rcases h with h | h
        · rw [(hT x y (h1 _ _ h).1 (h1 _ _ h).2).2 (EqvGen.rel _ _ h)]; exact EqvGen.refl _
        · exact EqvGen.rel _ _ ⟨x, y, h, rfl, rfl⟩
      | refl x => exact EqvGen.refl _
      | symm _ _ _ ih => exact eqv_symm ih
      | trans _ _ _ _ _ h1 h2 => exact eqv_trans h1 h2
    exact key a b h
  · intro h
    have same : ∀ a b, S a → S b → T a = T b → EqvGen (fun x y => R1 x y ∨ R2 x y) a b := fun a b ha hb e =>
      eqv_sub (fun _ _ h => EqvGen.rel _ _ (Or.inl h)) ((hT a b ha hb).1 e)
    have key : ∀ x y, EqvGen (fun x y => ∃ c d, R2 c d ∧ T c = x ∧ T d = y) x y →
        x = y ∨ ((∃ c, S c ∧ T c = x) ∧ (∃ d, S d ∧ T d = y) ∧ ∀ c d, S c → S d → T c = x → T d = y → EqvGen (fun x y => R1 x y ∨ R2 x y) c d) := by
      intro x y h
      induction h with
      | rel x y h =>
        obtain ⟨c, d, hcd, rfl, rfl⟩ := h
        obtain ⟨hc, hd⟩ := h2 _ _ hcd
        refine Or.inr ⟨⟨c, hc, rfl⟩, ⟨d, hd, rfl⟩, fun c' d' hc' hd' e1 e2 => ?_⟩
        exact eqv_trans (same _ _ hc' hc e1) (eqv_trans (EqvGen.rel _ _ (Or.inr hcd)) (same _ _ hd hd' e2.symm))
      | refl x => exact Or.inl rfl
      | symm x y _ ih =>
        rcases ih with h | ⟨h1, h2, h3⟩
        · exact Or.inl h.symm
        · exact Or.inr ⟨h2, h1, fun c d hc hd e1 e2 => eqv_symm (h3 d c hd hc e2 e1)⟩
      | trans x y z _ _ ih1 ih2 =>
        rcases ih1 with rfl | ⟨h1, h2, h3⟩
        · exact ih2
        · rcases ih2 with rfl | ⟨h4, h5, h6⟩
          · exact Or.inr ⟨h1, h2, h3⟩
          · obtain ⟨e, he, hee⟩ := h4
            exact Or.inr ⟨h1, h5, fun c d hc hd e1 e2 => eqv_trans (h3 c e hc he e1 hee) (h6 e d he hd hee e2)⟩
    rcases key _ _ h with e | ⟨-, -, h3⟩
    · exact same _ _ ha hb e
    · exact h3 a b ha hb rfl rfl

/-- The closure of a union of relations with disjoint supports. -/
theorem eqv_union {ι : Type} {S : ι → α → Prop} {R : ι → α → α → Prop} (hR : ∀ i a b, R i a b → S i a ∧ S i b)
    (hS : ∀ i j a, S i a → S j a → i = j) {i : ι} {a b : α} (ha : S i a) (h : EqvGen (fun x y => ∃ i, R i x y) a b) :
    S i b ∧ EqvGen (R i) a b := by
  have key : ∀ a b, EqvGen (fun x y => ∃ i, R i x y) a b → (S i a ∨ S i b → (S i a ∧ S i b ∧ EqvGen (R i) a b)) := by
    intro a b h
    induction h with
    | rel x y h =>
      obtain ⟨j, hj⟩ := h
      have := hR _ _ _ hj
      rintro (h | h)
      · cases hS _ _ _ h this.1; exact ⟨h, this.2, EqvGen.rel _ _ hj⟩
      · cases hS _ _ _ h this.2; exact ⟨this.1, h, EqvGen.rel _ _ hj⟩
    | refl x => intro h; rw [or_self] at h; exact ⟨h, h, EqvGen.refl _⟩
    | symm _ _ _ ih => intro h; obtain ⟨h1, h2, h3⟩ := ih h.symm; exact ⟨h2, h1, eqv_symm h3⟩
    | trans _ _ _ _ _ h1 h2 =>
      rintro (h | h)
      · obtain ⟨a1, a2, a3⟩ := h1 (Or.inl h)
        obtain ⟨b1, b2, b3⟩ := h2 (Or.inl a2)
        exact ⟨a1, b2, eqv_trans a3 b3⟩
      · obtain ⟨b1, b2, b3⟩ := h2 (Or.inr h)
        obtain ⟨a1, a2, a3⟩ := h1 (Or.inr b1)
        exact ⟨a1, b2, eqv_trans a3 b3⟩
  obtain ⟨-, h2, h3⟩ := key a b h (Or.inl ha)
  exact ⟨h2, h3⟩

end

/-! ### Calls -/

/-- The call is for an edge crossing the surface, and the vertices of the four leaves for it are `A`. -/
def CallTo (call : Axis × (Fin 4 → MdcNode)) (A : Fin 4 → Nat) : Prop :=
  ∃ l : Fin 4 → MdcLeaf, (∀ i, call.2 i = .leaf (l i)) ∧
    ∀ i, ∃ s : Nat, mdcSetIndex (l i).mask (sharedEdge call.1 i) = some (s : Int) ∧ (l i).verts[s]? = some (A i)

/-- The call is for an edge not crossing the surface. -/
def CallSkip (call : Axis × (Fin 4 → MdcNode)) : Prop :=
  ∃ l : Fin 4 → MdcLeaf, (∀ i, call.2 i = .leaf (l i)) ∧ ∃ s : Int, s < 0 ∧ mdcSetIndex (l 0).mask (sharedEdge call.1 0) = some s

theorem callTo_unique {call : Axis × (Fin 4 → MdcNode)} {A B : Fin 4 → Nat} (h1 : CallTo call A) (h2 : CallTo call B) : A = B := by
  obtain ⟨l, e1, f1⟩ := h1
  obtain ⟨l', e2, f2⟩ := h2
  funext i
  have : l i = l' i := by have := (e1 i).symm.trans (e2 i); injection this
  obtain ⟨s, a1, a2⟩ := f1 i
  obtain ⟨s', b1, b2⟩ := f2 i
  rw [← this] at b1 b2
  rw [a1] at b1
  have : s = s' := by have := Option.some.inj b1; omega
  rw [← this, a2] at b2
  exact Option.some.inj b2

theorem callTo_skip {call : Axis × (Fin 4 → MdcNode)} {A : Fin 4 → Nat} (h1 : CallTo call A) : ¬ CallSkip call := by
  rintro ⟨l', e2, s, hs, f2⟩
  obtain ⟨l, e1, f1⟩ := h1
  have : l 0 = l' 0 := by have := (e1 0).symm.trans (e2 0); injection this
  obtain ⟨s', a1, a2⟩ := f1 0
  rw [← this, a1] at f2
  have := Option.some.inj f2
  omega

theorem mdcLeafOf_call {call : Axis × (Fin 4 → MdcNode)} {l : Fin 4 → MdcLeaf} (h : ∀ i, call.2 i = .leaf (l i)) (s : MdcCluster K) :
    mdcClusterCall s call = mdcClusterLeaves call.1 l s := by
  have e : ![l 0, l 1, l 2, l 3] = l := by funext i; fin_cases i <;> rfl
  unfold mdcClusterCall
  simp only [h, mdcLeafOf, Option.bind_eq_bind, Option.bind_some, e]

/-! ### Set numbers -/

/-- The heap with the set numbers of the collected vertices. -/
noncomputable def setSurf (h : MdcHeap K) (vs : List Nat) : MdcHeap K :=
  h.mapIdx fun a v => { v with surfaceIdx := if a ∈ vs then vs.idxOf a else kBadIndex }

theorem setSurf_get (h : MdcHeap K) (vs : List Nat) (a : Nat) :
    (setSurf h vs)[a]? = (h[a]?).map fun v => { v with surfaceIdx := if a ∈ vs then vs.idxOf a else kBadIndex } := by
  unfold setSurf
  rw [List.getElem?_mapIdx]

theorem setSurf_length (h : MdcHeap K) (vs : List Nat) : (setSurf h vs).length = h.length := by unfold setSurf; rw [List.length_mapIdx]

/-- No vertex has a set number. -/
def Clean (h : MdcHeap K) : Prop := ∀ (a : Nat) (v : MdcVertex K), h[a]? = some v → v.surfaceIdx = kBadIndex

theorem setSurf_nil {h : MdcHeap K} (hc : Clean h) : setSurf h [] = h := by
  apply List.ext_getElem?
  intro a
  rw [setSurf_get]
  cases e : h[a]? with
  | none => rfl
  | some v =>
    have := hc a v e
    simp only [Option.map_some, List.not_mem_nil, if_false, Option.some.injEq]
    rw [← this]

theorem setSurf_par (h : MdcHeap K) (vs : List Nat) : Par (setSurf h vs) = Par h := by
  funext a b
  unfold Par
  rw [setSurf_get]
  cases h[a]? with
  | none => simp
  | some v => simp

theorem setSurf_ok {h : MdcHeap K} (ok : HeapOK h) (vs : List Nat) : HeapOK (setSurf h vs) := by
  unfold HeapOK
  rw [setSurf_par, setSurf_length]
  exact ok

theorem setSurf_top {h : MdcHeap K} {vs : List Nat} {a r : Nat} : IsTop (setSurf h vs) a r ↔ IsTop h a r := by
  unfold IsTop Anc
  rw [setSurf_par]

/-- The root of the tree of a vertex. -/
noncomputable def topOf (h : MdcHeap K) (a : Nat) : Nat := (highestAncestor h a).getD 0

theorem topOf_top {h : MdcHeap K} (ok : HeapOK h) {a : Nat} (ha : a < h.length) : IsTop h a (topOf h a) := by
  obtain ⟨r, hr⟩ := top_exists ok ha
  unfold topOf
  rw [highestAncestor_top ok ha hr]
  exact hr

theorem topOf_eq {h : MdcHeap K} (ok : HeapOK h) {a r : Nat} (ha : a < h.length) (hr : IsTop h a r) : topOf h a = r :=
  top_unique (topOf_top ok ha) hr

theorem topOf_lt {h : MdcHeap K} (ok : HeapOK h) {a : Nat} (ha : a < h.length) : topOf h a < h.length := top_lt ok ha (topOf_top ok ha)

theorem highest_setSurf {h : MdcHeap K} (ok : HeapOK h) (vs : List Nat) {a : Nat} (ha : a < h.length) :
    highestAncestor (setSurf h vs) a = some (topOf h a) :=
  highestAncestor_top (setSurf_ok ok vs) (by rw [setSurf_length]; exact ha) (setSurf_top.2 (topOf_top ok ha))

/-! ### Sets of collected vertices -/

/-- The disjoint sets of the collected vertices are the classes of `R`. -/
def Cap (d : DSU) (vs : List Nat) (R : Nat → Nat → Prop) : Prop :=
  ∃ rep depth, DSU.Inv d rep depth ∧ d.count = vs.length ∧ ∀ x ∈ vs, ∀ y ∈ vs, (rep (vs.idxOf x) = rep (vs.idxOf y) ↔ EqvGen R x y)

theorem cap_congr {d : DSU} {vs : List Nat} {R R' : Nat → Nat → Prop} (h : ∀ x y, EqvGen R x y ↔ EqvGen R' x y) (hc : Cap d vs R) :
    Cap d vs R' := by
  obtain ⟨rep, depth, h1, h2, h3⟩ := hc
  exact ⟨rep, depth, h1, h2, fun x hx y hy => (h3 x hx y hy).trans (h x y)⟩

theorem cap_nil : Cap (DSU.mk' 0) [] (fun _ _ => False) := ⟨id, fun _ => 0, (DSU.mk'_spec 0).1, (DSU.mk'_spec 0).2, by simp⟩

theorem idxOf_snoc {vs : List Nat} {x v : Nat} (hv : v ∉ vs) : (vs ++ [v]).idxOf x = if x ∈ vs then vs.idxOf x else if x = v then vs.length else vs.length + 1 := by
  rw [List.idxOf_append]
  split_ifs with h1 h2
  · rfl
  · subst h2; simp
  · rw [List.idxOf_cons_ne _ (fun e => h2 e.symm)]; simp; omega

theorem cap_add {d : DSU} {vs : List Nat} {R : Nat → Nat → Prop} (hR : ∀ x y, R x y → x ∈ vs ∧ y ∈ vs) (hc : Cap d vs R) {v : Nat} (hv : v ∉ vs) :
    Cap d.addSet.1 (vs ++ [v]) R ∧ d.addSet.2 = vs.length := by
  obtain ⟨rep, depth, h1, h2, h3⟩ := hc
  obtain ⟨e1, e2⟩ := DSU.expand_spec h1 (d.count + 1)
  have hlen : (d.expand (d.count + 1)).count = vs.length + 1 := by rw [e2, h2]; omega
  have hlast : rep vs.length = vs.length := h1.out _ (by omega)
  have hlt : ∀ x ∈ vs, rep (vs.idxOf x) < vs.length := by
    intro x hx
    have := (h1.root (i := vs.idxOf x) (by rw [h2]; exact List.idxOf_lt_length_of_mem hx)).1
    omega
  refine ⟨⟨rep, depth, e1, by simp only [DSU.addSet, hlen, List.length_append, List.length_singleton], ?_⟩, by simp only [DSU.addSet, hlen]; omega⟩
  have hnew : ∀ x ∈ vs, ¬ EqvGen R x v := by
    intro x hx h
    rcases eqv_out hR h with rfl | h
    · exact hv hx
    · exact hv h.2
  intro x hx y hy
  rw [idxOf_snoc hv, idxOf_snoc hv]
  simp only [List.mem_append, List.mem_singleton] at hx hy
  by_cases h4 : x ∈ vs
  · rw [if_pos h4]
    by_cases h5 : y ∈ vs
    · rw [if_pos h5]; exact h3 x h4 y h5
    · have := hy.resolve_left h5
      subst this
      rw [if_neg h5, if_pos rfl, hlast]
      exact ⟨fun h => absurd h (by have := hlt x h4; omega), fun h => absurd h (hnew x h4)⟩
  · have := hx.resolve_left h4
    subst this
    rw [if_neg h4, if_pos rfl, hlast]
    by_cases h5 : y ∈ vs
    · rw [if_pos h5]
      exact ⟨fun h => absurd h (by have := hlt y h5; omega), fun h => absurd (eqv_symm h) (hnew y h5)⟩
    · have := hy.resolve_left h5
      subst this
      rw [if_neg h5, if_pos rfl]
      exact ⟨fun _ => EqvGen.refl _, fun _ => hlast.symm⟩

theorem cap_merge {d : DSU} {vs : List Nat} {R : Nat → Nat → Prop} (hc : Cap d vs R) {x y : Nat} (hx : x ∈ vs) (hy : y ∈ vs) :
    ∃ d', d.mergeSets (vs.idxOf x) (vs.idxOf y) = some d' ∧ Cap d' vs (fun c e => R c e ∨ (c = x ∧ e = y)) := by
  obtain ⟨rep, depth, h1, h2, h3⟩ := hc
  obtain ⟨d', rep', depth', a1, a2, a3, a4⟩ := DSU.mergeSets_spec h1 (a := vs.idxOf x) (b := vs.idxOf y)
    (by rw [h2]; exact List.idxOf_lt_length_of_mem hx) (by rw [h2]; exact List.idxOf_lt_length_of_mem hy)
  refine ⟨d', a1, rep', depth', a2, by omega, fun c hc e he => ?_⟩
  rw [a4, eqv_add, h3 c hc e he, h3 c hc x hx, h3 e he y hy, h3 c hc y hy, h3 e he x hx]

/-! ### The loop over the calls -/

/-- The vertex is collected. -/
def touchL (vs : List Nat) (v : Nat) : List Nat := if v ∈ vs then vs else vs ++ [v]

theorem mem_touchL {vs : List Nat} {v x : Nat} : x ∈ touchL vs v ↔ x ∈ vs ∨ x = v := by
  unfold touchL
  split_ifs with h
  · constructor
    · exact Or.inl
    · rintro (h1 | rfl); exacts [h1, h]
  · simp

theorem nodup_touchL {vs : List Nat} (h : vs.Nodup) (v : Nat) : (touchL vs v).Nodup := by
  unfold touchL
  split_ifs with h1
  · exact h
  · rw [List.nodup_append]
    exact ⟨h, by simp, by rintro a ha b hb rfl; exact h1 (by simpa using List.mem_singleton.1 hb ▸ ha)⟩

/-- State of the loop: collected vertices with their numbers, and the sets. -/
structure ClInv (h : MdcHeap K) (s : MdcCluster K) (R : Nat → Nat → Prop) : Prop where
  heap : s.heap = setSurf h s.vertices
  nodup : s.vertices.Nodup
  cap : Cap s.dsu s.vertices R
  sub : ∀ x y, R x y → x ∈ s.vertices ∧ y ∈ s.vertices

theorem touch_spec {h : MdcHeap K} {s : MdcCluster K} {R : Nat → Nat → Prop} (hi : ClInv h s R) {v : Nat} (hv : v < h.length)
    (hb : s.vertices.length ≤ kBadIndex) :
    ∃ s', mdcTouch s v = some s' ∧ s'.vertices = touchL s.vertices v ∧ ClInv h s' R := by
  have e : h[v]? = some h[v] := List.getElem?_eq_getElem hv
  unfold mdcTouch
  rw [hi.heap, setSurf_get, e]
  simp only [Option.map_some, Option.bind_eq_bind, Option.bind_some]
  by_cases hm : v ∈ s.vertices
  · have := List.idxOf_lt_length_of_mem hm
    rw [if_pos hm, if_neg (by omega)]
    refine ⟨s, rfl, by unfold touchL; rw [if_pos hm], hi⟩
  · obtain ⟨c1, c2⟩ := cap_add hi.sub hi.cap hm
    rw [if_neg hm, if_pos rfl, DSU.write_lt _ (by rw [setSurf_length]; exact hv), Option.bind_some]
    have et : touchL s.vertices v = s.vertices ++ [v] := by unfold touchL; rw [if_neg hm]
    refine ⟨_, rfl, et.symm, ?_, ?_, c1, ?_⟩
    · dsimp only
      apply List.ext_getElem?
      intro a
      rw [List.getElem?_set, setSurf_get, setSurf_length, setSurf_get]
      by_cases hav : v = a
      · subst hav
        rw [if_pos rfl, if_pos hv, e]
        simp [c2, idxOf_snoc hm, hm]
      · rw [if_neg hav]
        cases h[a]? with
        | none => rfl
        | some x =>
          have : a ≠ v := fun e => hav e.symm
          simp [idxOf_snoc hm, this]
          split_ifs <;> rfl
    · dsimp only; rw [← et]; exact nodup_touchL hi.nodup v
    · intro x y hxy
      have := hi.sub x y hxy
      simp [this.1, this.2]

theorem loop_spec {h : MdcHeap K} (ok : HeapOK h) {D : Axis} {l : Fin 4 → MdcLeaf} {A : Fin 4 → Nat}
    (hA : ∀ i, ∃ s : Nat, mdcSetIndex (l i).mask (sharedEdge D i) = some (s : Int) ∧ (l i).verts[s]? = some (A i))
    (hlt : ∀ i, A i < h.length) : ∀ (is : List (Fin 4)) (s : MdcCluster K) (R : Nat → Nat → Prop), ClInv h s R →
    s.vertices.length + is.length ≤ kBadIndex + 1 →
    ∃ s', mdcClusterLoop D l is s = some (s', some (is.map fun i => topOf h (A i))) ∧
      s'.vertices = is.foldl (fun vs i => touchL vs (topOf h (A i))) s.vertices ∧ ClInv h s' R := by
  intro is
  induction is with
  | nil => intro s R hi _; exact ⟨s, rfl, rfl, hi⟩
  | cons i is ih =>
    intro s R hi hb
    obtain ⟨n, h1, h2⟩ := hA i
    have hn := (List.getElem?_eq_some_iff.1 h2).1
    simp only [List.length_cons] at hb
    obtain ⟨s1, a1, a2, a3⟩ := touch_spec hi (topOf_lt ok (hlt i)) (by omega)
    have hl1 : s1.vertices.length ≤ s.vertices.length + 1 := by
      rw [a2]; unfold touchL; split_ifs <;> simp
    obtain ⟨s2, b1, b2, b3⟩ := ih s1 R a3 (by omega)
    rw [mdcClusterLoop]
    simp only [h1, Option.bind_eq_bind, Option.bind_some, Int.toNat_natCast]
    rw [if_neg (by omega)]
    simp only [h2, hi.heap, highest_setSurf ok _ (hlt i), Option.bind_some]
    rw [a1]
    simp only [Option.bind_some, b1, Option.map_some]
    exact ⟨s2, rfl, by rw [b2, a2]; rfl, b3⟩

theorem surface_of {h : MdcHeap K} {s : MdcCluster K} {R : Nat → Nat → Prop} (hi : ClInv h s R) {v : Nat} (hv : v ∈ s.vertices) (hl : v < h.length) :
    mdcSurface s.heap v = some (s.vertices.idxOf v) := by
  unfold mdcSurface
  rw [hi.heap, setSurf_get, List.getElem?_eq_getElem hl]
  simp [hv]

/-- Relation between the roots of the trees of the vertices met by the calls. -/
def TopRel (h : MdcHeap K) (calls : List (Axis × (Fin 4 → MdcNode))) (x y : Nat) : Prop :=
  ∃ call ∈ calls, ∃ A, CallTo call A ∧ ∃ i j, topOf h (A i) = x ∧ topOf h (A j) = y

theorem call_skip {s : MdcCluster K} {call : Axis × (Fin 4 → MdcNode)} (hs : CallSkip call) : mdcClusterCall s call = some s := by
  obtain ⟨l, e, n, hn, hf⟩ := hs
  rw [mdcLeafOf_call e, mdcClusterLeaves, show List.finRange 4 = [0, 1, 2, 3] from rfl, mdcClusterLoop]
  simp only [hf, Option.bind_eq_bind, Option.bind_some]
  rw [if_pos (Or.inl hn)]
  rfl

theorem call_spec {h : MdcHeap K} (ok : HeapOK h) {s : MdcCluster K} {R : Nat → Nat → Prop} (hi : ClInv h s R) {call : Axis × (Fin 4 → MdcNode)}
    {A : Fin 4 → Nat} (hA : CallTo call A) (hlt : ∀ i, A i < h.length) (hb : s.vertices.length + 3 ≤ kBadIndex) :
    ∃ s', mdcClusterCall s call = some s' ∧ (∀ x, x ∈ s'.vertices ↔ x ∈ s.vertices ∨ ∃ i, topOf h (A i) = x) ∧
      ClInv h s' (fun x y => R x y ∨ ∃ i j, topOf h (A i) = x ∧ topOf h (A j) = y) := by
  obtain ⟨l, e, hf⟩ := hA
  obtain ⟨s1, a1, a2, a3⟩ := loop_spec ok hf hlt (List.finRange 4) s R hi (by simp; omega)
  have hmem : ∀ x, x ∈ s1.vertices ↔ x ∈ s.vertices ∨ ∃ i, topOf h (A i) = x := by
    intro x
    have hex : (∃ i, topOf h (A i) = x) ↔ topOf h (A 0) = x ∨ topOf h (A 1) = x ∨ topOf h (A 2) = x ∨ topOf h (A 3) = x := by
      constructor
      · rintro ⟨i, hi⟩; fin_cases i <;> simp_all
      · rintro (h | h | h | h); exacts [⟨0, h⟩, ⟨1, h⟩, ⟨2, h⟩, ⟨3, h⟩]
    rw [a2, hex]
    simp only [show List.finRange 4 = [0, 1, 2, 3] from rfl, List.foldl_cons, List.foldl_nil, mem_touchL, eq_comm (a := x), or_assoc]
  have hin : ∀ i, topOf h (A i) ∈ s1.vertices := fun i => (hmem _).2 (Or.inr ⟨i, rfl⟩)
  have hl : ∀ i, topOf h (A i) < h.length := fun i => topOf_lt ok (hlt i)
  obtain ⟨d1, c1, k1⟩ := cap_merge a3.cap (hin 0) (hin 1)
  obtain ⟨d2, c2, k2⟩ := cap_merge k1 (hin 2) (hin 3)
  obtain ⟨d3, c3, k3⟩ := cap_merge k2 (hin 0) (hin 2)
  rw [mdcLeafOf_call e, mdcClusterLeaves, a1]
  simp only [Option.bind_eq_bind, Option.bind_some, show List.finRange 4 = [0, 1, 2, 3] from rfl, List.map_cons, List.map_nil,
    surface_of a3 (hin _) (hl _), c1, c2, c3]
  refine ⟨_, rfl, hmem, a3.heap, a3.nodup, ?_, ?_⟩
  · refine cap_congr (fun x y => eqv_congr ?_ ?_ x y) k3
    · rintro a b (((h1 | ⟨rfl, rfl⟩) | ⟨rfl, rfl⟩) | ⟨rfl, rfl⟩)
      · exact EqvGen.rel _ _ (Or.inl h1)
      · exact EqvGen.rel _ _ (Or.inr ⟨_, _, rfl, rfl⟩)
      · exact EqvGen.rel _ _ (Or.inr ⟨_, _, rfl, rfl⟩)
      · exact EqvGen.rel _ _ (Or.inr ⟨_, _, rfl, rfl⟩)
    · rintro a b (h1 | ⟨i, j, rfl, rfl⟩)
      · exact EqvGen.rel _ _ (Or.inl (Or.inl (Or.inl h1)))
      · have e01 : EqvGen (fun c e => ((R c e ∨ (c = topOf h (A 0) ∧ e = topOf h (A 1))) ∨ (c = topOf h (A 2) ∧ e = topOf h (A 3))) ∨
            (c = topOf h (A 0) ∧ e = topOf h (A 2))) (topOf h (A 0)) (topOf h (A 1)) := EqvGen.rel _ _ (Or.inl (Or.inl (Or.inr ⟨rfl, rfl⟩)))
        have e23 : EqvGen (fun c e => ((R c e ∨ (c = topOf h (A 0) ∧ e = topOf h (A 1))) ∨ (c = topOf h (A 2) ∧ e = topOf h (A 3))) ∨
            (c = topOf h (A 0) ∧ e = topOf h (A 2))) (topOf h (A 2)) (topOf h (A 3)) := EqvGen.rel _ _ (Or.inl (Or.inr ⟨rfl, rfl⟩))
        have e02 : EqvGen (fun c e => ((R c e ∨ (c = topOf h (A 0) ∧ e = topOf h (A 1))) ∨ (c = topOf h (A 2) ∧ e = topOf h (A 3))) ∨
            (c = topOf h (A 0) ∧ e = topOf h (A 2))) (topOf h (A 0)) (topOf h (A 2)) := EqvGen.rel _ _ (Or.inr ⟨rfl, rfl⟩)
        have e0 : ∀ i, EqvGen (fun c e => ((R c e ∨ (c = topOf h (A 0) ∧ e = topOf h (A 1))) ∨ (c = topOf h (A 2) ∧ e = topOf h (A 3))) ∨
            (c = topOf h (A 0) ∧ e = topOf h (A 2))) (topOf h (A 0)) (topOf h (A i)) := by
          intro i
          fin_cases i
          exacts [EqvGen.refl _, e01, e02, eqv_trans e02 e23]
        exact eqv_trans (eqv_symm (e0 i)) (e0 j)
  · rintro x y (h1 | ⟨i, j, rfl, rfl⟩)
    · exact a3.sub x y h1
    · exact ⟨hin i, hin j⟩

theorem calls_spec {h : MdcHeap K} (ok : HeapOK h) (hc : Clean h) (S : List Nat) (hS : S.length + 3 ≤ kBadIndex) (hSl : ∀ a ∈ S, a < h.length)
    (calls : List (Axis × (Fin 4 → MdcNode))) (hcalls : ∀ call ∈ calls, CallSkip call ∨ ∃ A, CallTo call A ∧ ∀ i, A i ∈ S) :
    ∃ s, calls.foldlM mdcClusterCall ⟨h, DSU.mk' 0, []⟩ = some s ∧ (∀ x, x ∈ s.vertices ↔ TopRel h calls x x) ∧ ClInv h s (TopRel h calls) := by
  induction calls using List.reverseRecOn with
  | nil =>
    refine ⟨_, rfl, ?_, (setSurf_nil hc).symm, List.nodup_nil, cap_congr (fun x y => ?_) cap_nil, ?_⟩
    · simp [TopRel]
    · have : TopRel h [] = fun _ _ => False := by funext x y; simp [TopRel]
      rw [this]
    · rintro x y ⟨call, hc, -⟩; cases hc
  | append_singleton pre call ih =>
    obtain ⟨s, a1, a2, a3⟩ := ih fun c hc => hcalls c (List.mem_append_left _ hc)
    have hlen : s.vertices.length ≤ S.length := by
      rw [← List.length_map (f := topOf h) (as := S)]
      refine (List.subperm_of_subset a3.nodup ?_).length_le
      intro x hx
      obtain ⟨c, hc, A, hA, i, j, e, -⟩ := (a2 x).1 hx
      rcases hcalls c (List.mem_append_left _ hc) with h1 | ⟨B, hB, hBS⟩
      · exact absurd h1 (callTo_skip hA)
      · rw [callTo_unique hA hB] at e
        exact List.mem_map.2 ⟨_, hBS i, e⟩
    rw [List.foldlM_append, a1]
    simp only [Option.bind_eq_bind, Option.bind_some, List.foldlM_cons, List.foldlM_nil]
    rcases hcalls call (by simp) with h1 | ⟨B, hB, hBS⟩
    · rw [call_skip h1]
      have : TopRel h (pre ++ [call]) = TopRel h pre := by
        funext x y
        simp only [TopRel, List.mem_append, List.mem_singleton, eq_iff_iff]
        constructor
        · rintro ⟨c, hc | rfl, A, hA, h2⟩
          · exact ⟨c, hc, A, hA, h2⟩
          · exact absurd h1 (callTo_skip hA)
        · rintro ⟨c, hc, h2⟩; exact ⟨c, Or.inl hc, h2⟩
      rw [this]
      exact ⟨s, rfl, a2, a3⟩
    · obtain ⟨s', b1, b2, b3⟩ := call_spec ok a3 hB (fun i => hSl _ (hBS i)) (by omega)
      rw [b1]
      have : TopRel h (pre ++ [call]) = fun x y => TopRel h pre x y ∨ ∃ i j, topOf h (B i) = x ∧ topOf h (B j) = y := by
        funext x y
        simp only [TopRel, List.mem_append, List.mem_singleton, eq_iff_iff]
        constructor
        · rintro ⟨c, hc | rfl, A, hA, h2⟩
          · exact Or.inl ⟨c, hc, A, hA, h2⟩
          · rw [callTo_unique hA hB] at h2; exact Or.inr h2
        · rintro (⟨c, hc, h2⟩ | h2)
          · exact ⟨c, Or.inl hc, h2⟩
          · exact ⟨call, Or.inr rfl, B, hB, h2⟩
      rw [this]
      refine ⟨s', rfl, fun x => ?_, b3⟩
      rw [b2, a2]
      constructor
      · rintro (h | ⟨i, hi⟩); exacts [Or.inl h, Or.inr ⟨i, i, hi, hi⟩]
      · rintro (h | ⟨i, j, hi, -⟩); exacts [Or.inl h, Or.inr ⟨i, hi⟩]

end Isomesh
