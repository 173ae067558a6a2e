import Verif.Proofs.DcContour2
import Verif.Props.OctreeVert
import Verif.Spec.DmcOctree

/-! Contouring of a dual marching cubes octree: the state of the loops. -/

namespace Isomesh
open Spec

set_option linter.unusedSectionVars false
variable {K : Type} [Add K] [_root_.Sub K] [Mul K] [Div K] [Neg K] [Zero K] [One K] [OfNat K 2] [OfScientific K] [NatCast K] [IntCast K]
  [Fabs K] [Elem K] [LinearOrder K] [RoundedLaws K]

noncomputable section
open scoped Classical

/-! ### Interpolation -/

theorem lerp_zero {A B : DmcLeaf ℝ} (h : SignChange A B) :
    ZeroParam A B (|A.w| / (|A.w| + |B.w|)) ∧
    (∀ a b : Vec3 ℝ, dmcLerp a |A.w| b |B.w| = between (|A.w| / (|A.w| + |B.w|)) a b) := by
  have hpos : 0 < |A.w| + |B.w| := by
    rcases h with ⟨-, h⟩ | ⟨h, -⟩
    · have := abs_pos.2 h.ne'; positivity
    · have := abs_pos.2 h.ne'; positivity
  refine ⟨⟨⟨by positivity, (div_le_one hpos).2 (by linarith [abs_nonneg B.w])⟩, ?_⟩, ?_⟩
  · rcases h with ⟨h1, h2⟩ | ⟨h1, h2⟩
    · rw [abs_of_nonpos h1, abs_of_pos h2] at hpos ⊢
      field_simp; ring
    · rw [abs_of_pos h1, abs_of_nonpos h2] at hpos ⊢
      field_simp; ring
  · intro a b
    unfold dmcLerp between
    have := hpos.ne'
    ext <;> simp only <;> field_simp <;> ring

theorem zeroParam_unique {A B : DmcLeaf ℝ} (h : SignChange A B) {s s' : ℝ} (hs : ZeroParam A B s) (hs' : ZeroParam A B s') :
    s = s' := by
  have hne : A.w - B.w ≠ 0 := by
    rcases h with ⟨h1, h2⟩ | ⟨h1, h2⟩
    · have : A.w - B.w < 0 := by linarith
      exact this.ne
    · have : 0 < A.w - B.w := by linarith
      exact this.ne'
  have e1 := hs.2
  have e2 := hs'.2
  have : (s - s') * (A.w - B.w) = 0 := by linarith
  rcases mul_eq_zero.1 this with h | h
  · linarith
  · exact absurd h hne

/-! ### Triangles -/

theorem emitTriangles_any (vs : List (Option Nat)) (row : List Int) (hrow : rowOK row = true) (mesh : Mesh K)
    (f : Nat → Nat) (hv : ∀ t ∈ rowTriangles row, ∀ i, (i = t.1 ∨ i = t.2.1 ∨ i = t.2.2) →
      vs[i]? = some (some (f i)) ∧ f i < mesh.vertices.length) :
    emitTriangles vs row mesh = some ⟨mesh.vertices, mesh.indices ++ flatTri
      (((rowTriangles row).map fun t => (f t.1, f t.2.1, f t.2.2)).filter
        fun t => decide (t.1 ≠ t.2.1 ∧ t.2.1 ≠ t.2.2 ∧ t.1 ≠ t.2.2))⟩ := by
  induction row using rowTriangles.induct generalizing mesh with
  | case1 a b c rest ha =>
    unfold rowOK at hrow
    unfold rowTriangles emitTriangles
    by_cases h1 : a = -1
    · simp [h1, flatTri]
    · rw [if_neg h1] at hrow
      simp only [Bool.and_eq_true, decide_eq_true_eq] at hrow
      omega
  | case2 a b c rest ha ih =>
    have h1 : ¬ a = -1 := by omega
    unfold rowOK at hrow
    rw [if_neg h1] at hrow
    simp only [Bool.and_eq_true, decide_eq_true_eq] at hrow
    have hrt : rowTriangles (a :: b :: c :: rest) = (a.toNat, b.toNat, c.toNat) :: rowTriangles rest := by
      rw [rowTriangles, if_neg ha]
    rw [hrt] at hv ⊢
    have h0 := hv _ List.mem_cons_self
    obtain ⟨hx, lx⟩ := h0 _ (Or.inl rfl)
    obtain ⟨hy, ly⟩ := h0 _ (Or.inr (Or.inl rfl))
    obtain ⟨hz, lz⟩ := h0 _ (Or.inr (Or.inr rfl))
    unfold emitTriangles
    rw [if_neg h1]
    simp only at hx hy hz lx ly lz
    simp only [hx, hy, hz, Option.join_some, Option.bind_eq_bind, Option.bind_some]
    rw [addTriangle_any lx ly lz]
    simp only [Option.bind_some]
    refine (ih hrow.2 _ (by exact fun t ht => hv t (List.mem_cons_of_mem _ ht))).trans ?_
    dsimp only
    rw [List.append_assoc, ← flatTri_append, ← List.filter_append]
    rfl
  | case3 l hl =>
    unfold rowTriangles emitTriangles
    match l, hl with
    | [], _ => simp [rowOK] at hrow
    | [a], _ =>
      simp [rowOK] at hrow
      simp [hrow, flatTri]
    | [a, b], _ =>
      simp [rowOK] at hrow
      simp [hrow, flatTri]
    | a :: b :: c :: r, hl => exact absurd rfl (hl a b c r)

theorem prefix_get {α : Type} {E E' : List α} (h : E <+: E') {v : Nat} {x : α} (hx : E[v]? = some x) : E'[v]? = some x := by
  obtain ⟨t, rfl⟩ := h
  rw [List.getElem?_append_left (List.getElem?_eq_some_iff.1 hx).1]
  exact hx

/-! ### The vertex map -/

/-- The key of a pair of leaves. -/
def cellKey (x : DmcCell K × DmcCell K) : Nat × Nat := dmcKey x.1.2 x.2.2

/-- The vertex that the code creates for a pair of leaves. -/
def pairVertex (normalize : Vec3 K → Vec3 K) (x : DmcCell K × DmcCell K) (mat : Material) : MeshVertex K :=
  ⟨dmcLerp x.1.2.vertex (fabs x.1.2.w) x.2.2.vertex (fabs x.2.2.w),
    normalize (dmcLerp x.1.2.normal (fabs x.1.2.w) x.2.2.normal (fabs x.2.2.w)), mat⟩

/-- The state of contouring after vertices have been made for the pairs `E`. -/
structure DmcInv (normalize : Vec3 K → Vec3 K) (junk : Nat → Option Material) (s : DmcState K)
    (E : List (DmcCell K × DmcCell K)) : Prop where
  map : s.map = E.mapIdx fun i x => (cellKey x, i)
  nodup : (E.map cellKey).Nodup
  verts : List.Forall₂ (fun V x => ∃ m, dmcMaterial junk x.1.2 x.2.2 = some m ∧ V = pairVertex normalize x m) s.mesh.vertices E

theorem DmcInv.length {normalize : Vec3 K → Vec3 K} {junk : Nat → Option Material} {s : DmcState K}
    {E : List (DmcCell K × DmcCell K)} (h : DmcInv normalize junk s E) : s.mesh.vertices.length = E.length := h.verts.length_eq

section
variable {normalize : Vec3 K → Vec3 K} {junk : Nat → Option Material}

theorem edgeVertex_inv {s s' : DmcState K} {E : List (DmcCell K × DmcCell K)} (h : DmcInv normalize junk s E) {A B : DmcCell K} {v : Nat}
    (hv : dmcEdgeVertex normalize junk A.2 B.2 s = some (s', v)) :
    ∃ E', DmcInv normalize junk s' E' ∧ s'.mesh.indices = s.mesh.indices ∧ (E' = E ∨ E' = E ++ [(A, B)]) ∧
      ∃ x, E'[v]? = some x ∧ cellKey x = cellKey (A, B) := by
  unfold dmcEdgeVertex at hv
  cases hf : s.map.find? (fun e => decide (e.1 = dmcKey A.2 B.2)) with
  | some e =>
    rw [hf] at hv
    simp only [Option.some.injEq, Prod.mk.injEq] at hv
    obtain ⟨rfl, rfl⟩ := hv
    have he := List.mem_of_find?_eq_some hf
    have hk := List.find?_some hf
    rw [decide_eq_true_eq] at hk
    rw [h.map, List.mem_mapIdx] at he
    obtain ⟨i, hi, rfl⟩ := he
    refine ⟨E, h, rfl, Or.inl rfl, E[i], ?_, hk⟩
    simp
  | none =>
    rw [hf] at hv
    simp only at hv
    unfold dmcNewVertex at hv
    have hfresh : ∀ x ∈ E, cellKey x ≠ cellKey (A, B) := by
      intro x hx
      obtain ⟨i, hi, rfl⟩ := List.mem_iff_getElem.1 hx
      have := List.find?_eq_none.1 hf (cellKey E[i], i) (by rw [h.map, List.mem_mapIdx]; exact ⟨i, hi, rfl⟩)
      rw [decide_eq_true_eq] at this
      exact this
    simp only [Option.bind_eq_bind] at hv
    obtain ⟨m, hm, hv⟩ := Option.bind_eq_some_iff.1 hv
    obtain ⟨⟨mesh, w⟩, hmv, hv⟩ := Option.bind_eq_some_iff.1 hv
    simp only [Option.some.injEq, Prod.mk.injEq] at hv
    obtain ⟨rfl, rfl⟩ := hv
    unfold Mesh.addVertex at hmv
    split at hmv
    · rename_i hlen
      simp only [Option.some.injEq, Prod.mk.injEq] at hmv
      obtain ⟨rfl, rfl⟩ := hmv
      have hw : u32 ((s.mesh.vertices ++ [(⟨dmcLerp A.2.vertex (fabs A.2.w) B.2.vertex (fabs B.2.w),
          normalize (dmcLerp A.2.normal (fabs A.2.w) B.2.normal (fabs B.2.w)), m⟩ : MeshVertex K)]).length - 1) = E.length := by
        rw [List.length_append, List.length_singleton, Nat.add_sub_cancel, h.length, u32, Nat.mod_eq_of_lt]
        have := h.length
        omega
      refine ⟨E ++ [(A, B)], ⟨?_, ?_, ?_⟩, rfl, Or.inr rfl, (A, B), ?_, rfl⟩
      · dsimp only
        rw [h.map, List.mapIdx_append]
        congr 1
        rw [hw]
        simp [cellKey]
      · rw [List.map_append, List.nodup_append]
        refine ⟨h.nodup, by simp, ?_⟩
        intro a ha b hb
        obtain ⟨x, hx, rfl⟩ := List.mem_map.1 ha
        simp only [List.map_cons, List.map_nil, List.mem_singleton] at hb
        rw [hb]
        exact hfresh x hx
      · refine List.rel_append h.verts (.cons ⟨m, ?_, rfl⟩ .nil)
        exact hm
      · rw [hw]
        simp
    · cases hmv

theorem edgeVertex_total {s : DmcState K} {A B : DmcLeaf K} (hm : dmcMaterial junk A B ≠ none)
    (hlen : s.mesh.vertices.length + 1 < 2 ^ 32) : ∃ r, dmcEdgeVertex normalize junk A B s = some r := by
  unfold dmcEdgeVertex
  cases s.map.find? (fun e => decide (e.1 = dmcKey A B)) with
  | some e => exact ⟨_, rfl⟩
  | none =>
    obtain ⟨m, hm⟩ := Option.ne_none_iff_exists'.1 hm
    unfold dmcNewVertex Mesh.addVertex
    simp only [hm, Option.bind_eq_bind, Option.bind_some]
    rw [if_pos (by omega)]
    exact ⟨_, rfl⟩

/-! ### The edges of a dual cell -/

/-- The pair of leaves of a cell edge. -/
def slotPair (q : Fin 8 → DmcCell K) (e : Nat) : DmcCell K × DmcCell K := (slotCell q e 0, slotCell q e 1)

theorem dmcMask_eq (q : Fin 8 → DmcCell K) : dmcMask (fun i => (q i).2) = dualMask q := by
  unfold dmcMask dualMask
  rw [← foldl_mask_eq]
  have : List.range 8 = (List.finRange 8).map (fun i : Fin 8 => i.val) := by decide
  rw [this, List.foldl_map]
  congr 1
  funext w i
  have : Fin.ofNat 8 i.val = i := by ext; simp [Fin.ofNat, Nat.mod_eq_of_lt i.isLt]
  simp only [this, decide_eq_true_eq]

theorem dualMask_lt (q : Fin 8 → DmcCell K) : dualMask q < 256 := by
  refine Nat.lt_pow_two_of_testBit (n := 8) _ fun i hi => ?_
  unfold dualMask
  rw [testBit_maskOf]
  simp; omega

theorem edgeCorner_lt8 : ∀ e < 12, edgeCorner e 0 < 8 ∧ edgeCorner e 1 < 8 := by decide +kernel

theorem crosses_iff (q : Fin 8 → DmcCell K) {e : Nat} (he : e < 12) :
    crosses (dualMask q) e = true ↔ SignChange (slotPair q e).1.2 (slotPair q e).2.2 := by
  obtain ⟨h0, h1⟩ := edgeCorner_lt8 e he
  unfold crosses solid dualMask SignChange slotPair slotCell
  rw [testBit_maskOf, testBit_maskOf]
  simp only [h0, h1, decide_true, Bool.true_and, bne_iff_ne, ne_eq, decide_eq_decide]
  rw [not_iff]
  constructor
  · intro h
    by_cases h' : (q (Fin.ofNat 8 (edgeCorner e 0))).2.w ≤ 0
    · exact Or.inl ⟨h', by by_contra h2; exact (h.2 (not_lt.1 h2)) h'⟩
    · exact Or.inr ⟨not_le.1 h', h.1 h'⟩
  · rintro (⟨h1, h2⟩ | ⟨h1, h2⟩)
    · exact ⟨fun h => absurd h1 h, fun h => absurd h (not_le.2 h2)⟩
    · exact ⟨fun _ => h2, fun _ => not_le.2 h1⟩

/-- What is known after the first `n` edges of a dual cell: `E0` is the list of pairs before the cell. -/
structure SlotInv (normalize : Vec3 K → Vec3 K) (junk : Nat → Option Material) (q : Fin 8 → DmcCell K)
    (E0 : List (DmcCell K × DmcCell K)) (idx : List Nat) (n : Nat) (r : DmcState K × List Nat) (E : List (DmcCell K × DmcCell K)) : Prop where
  inv : DmcInv normalize junk r.1 E
  pre : E0 <+: E
  len : E.length ≤ E0.length + n
  idx : r.1.mesh.indices = idx
  ids : r.2.length = n
  found : ∀ e < n, crosses (dualMask q) e = true → ∃ v, r.2[e]? = some v ∧ E[v]? = some (slotPair q e)
  mem : ∀ x ∈ E, x ∈ E0 ∨ ∃ e < n, crosses (dualMask q) e = true ∧ x = slotPair q e

theorem edgeMask_bit {w i : Nat} : w &&& (1 <<< i) ≠ 0 ↔ w.testBit i = true := by
  rw [Nat.one_shiftLeft, Nat.and_two_pow]
  cases w.testBit i <;> simp

/-- `Ok` pairs are determined by their keys. -/
def KeysOk (Ok : DmcCell K × DmcCell K → Prop) : Prop := ∀ x y, Ok x → Ok y → cellKey x = cellKey y → x = y

theorem slot_step {Ok : DmcCell K × DmcCell K → Prop} (hOk : KeysOk Ok) {q : Fin 8 → DmcCell K} (hq : ∀ e < 12, Ok (slotPair q e))
    {w : Nat} (hw : ∀ e < 12, w.testBit e = crosses (dualMask q) e) {E0 : List (DmcCell K × DmcCell K)} (hE0 : ∀ x ∈ E0, Ok x)
    {idx : List Nat} {n : Nat} (hn : n < 12) {r r' : DmcState K × List Nat} {E : List (DmcCell K × DmcCell K)}
    (h : SlotInv normalize junk q E0 idx n r E)
    (hr : dmcEdgeStep normalize junk (fun i => (q i).2) w r n = some r') :
    ∃ E', SlotInv normalize junk q E0 idx (n + 1) r' E' := by
  unfold dmcEdgeStep at hr
  by_cases hc : crosses (dualMask q) n = true
  · rw [if_pos (by rw [edgeMask_bit, hw n hn]; exact hc)] at hr
    cases hv : dmcEdgeVertex normalize junk (slotPair q n).1.2 (slotPair q n).2.2 r.1 with
    | none =>
      exfalso
      have : dmcEdgeVertex normalize junk (q (Fin.ofNat 8 ((kCellEdgeEndpoint.getD n []).getD 0 0))).2
        (q (Fin.ofNat 8 ((kCellEdgeEndpoint.getD n []).getD 1 0))).2 r.1 = none := hv
      simp only [this] at hr
      cases hr
    | some sv =>
      have : dmcEdgeVertex normalize junk (q (Fin.ofNat 8 ((kCellEdgeEndpoint.getD n []).getD 0 0))).2
        (q (Fin.ofNat 8 ((kCellEdgeEndpoint.getD n []).getD 1 0))).2 r.1 = some sv := hv
      simp only [this, Option.some.injEq] at hr
      subst hr
      obtain ⟨s', v⟩ := sv
      obtain ⟨E', hinv, hi, hE, x, hx, hk⟩ := edgeVertex_inv h.inv hv
      have hmem : ∀ x ∈ E', x ∈ E ∨ x = slotPair q n := by
        intro y hy
        rcases hE with rfl | rfl
        · exact Or.inl hy
        · rcases List.mem_append.1 hy with hy | hy
          · exact Or.inl hy
          · exact Or.inr (by simpa using hy)
      have hpre : E <+: E' := by
        rcases hE with rfl | rfl
        · exact List.prefix_refl _
        · exact List.prefix_append _ _
      have hokE : ∀ x ∈ E, Ok x := by
        intro x hx
        rcases h.mem x hx with hx | ⟨e, he, -, rfl⟩
        · exact hE0 x hx
        · exact hq e (by omega)
      have hokx : Ok x := by
        rcases hmem x (List.mem_of_getElem? hx) with h' | rfl
        · exact hokE x h'
        · exact hq n hn
      have hxe : x = slotPair q n := hOk _ _ hokx (hq n hn) hk
      subst hxe
      refine ⟨E', hinv, h.pre.trans hpre, ?_, ?_, ?_, ?_, ?_⟩
      · have := h.len
        rcases hE with rfl | rfl
        · omega
        · rw [List.length_append, List.length_singleton]; omega
      · rw [← h.idx]; exact hi
      · simp [h.ids]
      · intro e he hce
        by_cases hen : e = n
        · subst hen
          refine ⟨v, ?_, hx⟩
          rw [← h.ids]
          simp
        · obtain ⟨u, hu, hu'⟩ := h.found e (by omega) hce
          refine ⟨u, ?_, prefix_get hpre hu'⟩
          have : e < r.2.length := by rw [h.ids]; omega
          simp only
          rw [List.getElem?_append_left this]
          exact hu
      · intro x hx
        rcases hmem x hx with hx | rfl
        · rcases h.mem x hx with hx | ⟨e, he, h'⟩
          · exact Or.inl hx
          · exact Or.inr ⟨e, by omega, h'⟩
        · exact Or.inr ⟨n, by omega, hc, rfl⟩
  · rw [if_neg (by rw [edgeMask_bit, hw n hn]; exact hc)] at hr
    simp only [Option.some.injEq] at hr
    subst hr
    refine ⟨E, h.inv, h.pre, by have := h.len; omega, h.idx, by simp [h.ids], ?_, ?_⟩
    · intro e he hce
      have hen : e ≠ n := by rintro rfl; exact hc hce
      obtain ⟨u, hu, hu'⟩ := h.found e (by omega) hce
      refine ⟨u, ?_, hu'⟩
      have : e < r.2.length := by rw [h.ids]; omega
      simp only
      rw [List.getElem?_append_left this]
      exact hu
    · intro x hx
      rcases h.mem x hx with hx | ⟨e, he, h'⟩
      · exact Or.inl hx
      · exact Or.inr ⟨e, by omega, h'⟩

theorem slot_total {q : Fin 8 → DmcCell K} {w : Nat} (hw : ∀ e < 12, w.testBit e = crosses (dualMask q) e)
    {n : Nat} (hn : n < 12) {r : DmcState K × List Nat}
    (hm : ∀ e < 12, crosses (dualMask q) e = true → dmcMaterial junk (slotPair q e).1.2 (slotPair q e).2.2 ≠ none)
    (hlen : r.1.mesh.vertices.length + 1 < 2 ^ 32) :
    ∃ r', dmcEdgeStep normalize junk (fun i => (q i).2) w r n = some r' := by
  unfold dmcEdgeStep
  by_cases hc : crosses (dualMask q) n = true
  · rw [if_pos (by rw [edgeMask_bit, hw n hn]; exact hc)]
    obtain ⟨sv, hv⟩ := edgeVertex_total (normalize := normalize) (s := r.1) (hm n hn hc) hlen
    have : dmcEdgeVertex normalize junk (q (Fin.ofNat 8 ((kCellEdgeEndpoint.getD n []).getD 0 0))).2
        (q (Fin.ofNat 8 ((kCellEdgeEndpoint.getD n []).getD 1 0))).2 r.1 = some sv := hv
    simp only [this]
    exact ⟨_, rfl⟩
  · rw [if_neg (by rw [edgeMask_bit, hw n hn]; exact hc)]
    exact ⟨_, rfl⟩

theorem slots_fold {Ok : DmcCell K × DmcCell K → Prop} (hOk : KeysOk Ok) {q : Fin 8 → DmcCell K} (hq : ∀ e < 12, Ok (slotPair q e))
    {w : Nat} (hw : ∀ e < 12, w.testBit e = crosses (dualMask q) e) {E0 : List (DmcCell K × DmcCell K)} (hE0 : ∀ x ∈ E0, Ok x)
    {s : DmcState K} (h : DmcInv normalize junk s E0) (n : Nat) (hn : n ≤ 12) {r : DmcState K × List Nat}
    (hr : (List.range n).foldlM (dmcEdgeStep normalize junk (fun i => (q i).2) w) (s, []) = some r) :
    ∃ E, SlotInv normalize junk q E0 s.mesh.indices n r E := by
  induction n generalizing r with
  | zero =>
    simp only [List.range_zero, List.foldlM_nil, Option.pure_def, Option.some.injEq] at hr
    subst hr
    exact ⟨E0, h, List.prefix_refl _, by omega, rfl, rfl, by simp, fun x hx => Or.inl hx⟩
  | succ n ih =>
    rw [List.range_succ, List.foldlM_append] at hr
    obtain ⟨r1, h1, h2⟩ := Option.bind_eq_some_iff.1 hr
    obtain ⟨E, hE⟩ := ih (by omega) h1
    simp only [List.foldlM_cons, List.foldlM_nil] at h2
    obtain ⟨r2, h3, h4⟩ := Option.bind_eq_some_iff.1 h2
    simp only [Option.pure_def, Option.some.injEq] at h4
    subst h4
    exact slot_step hOk hq hw hE0 (by omega) hE h3

theorem slots_total {Ok : DmcCell K × DmcCell K → Prop} (hOk : KeysOk Ok) {q : Fin 8 → DmcCell K} (hq : ∀ e < 12, Ok (slotPair q e))
    {w : Nat} (hw : ∀ e < 12, w.testBit e = crosses (dualMask q) e) {E0 : List (DmcCell K × DmcCell K)} (hE0 : ∀ x ∈ E0, Ok x)
    {s : DmcState K} (h : DmcInv normalize junk s E0)
    (hm : ∀ e < 12, crosses (dualMask q) e = true → dmcMaterial junk (slotPair q e).1.2 (slotPair q e).2.2 ≠ none)
    (hlen : E0.length + 12 < 2 ^ 32) (n : Nat) (hn : n ≤ 12) :
    ∃ r, (List.range n).foldlM (dmcEdgeStep normalize junk (fun i => (q i).2) w) (s, []) = some r := by
  induction n with
  | zero => exact ⟨_, rfl⟩
  | succ n ih =>
    obtain ⟨r1, h1⟩ := ih (by omega)
    obtain ⟨E, hE⟩ := slots_fold hOk hq hw hE0 h n (by omega) h1
    have hl := hE.len
    obtain ⟨r2, h2⟩ := slot_total (normalize := normalize) (junk := junk) hw (show n < 12 by omega) (r := r1) hm
      (by rw [hE.inv.length]; omega)
    refine ⟨r2, ?_⟩
    rw [List.range_succ, List.foldlM_append, h1]
    simp only [Option.bind_eq_bind, Option.bind_some, List.foldlM_cons, List.foldlM_nil, h2]
    rfl

/-! ### One dual cell -/

theorem dualVertexId_eq {E : List (DmcCell K × DmcCell K)} (hnd : E.Nodup) {q : Fin 8 → DmcCell K} {e v : Nat}
    (h : E[v]? = some (slotPair q e)) : dualVertexId E q e = v := by
  unfold dualVertexId
  obtain ⟨hv, hx⟩ := List.getElem?_eq_some_iff.1 h
  rw [List.findIdx_eq hv]
  refine ⟨by simp only [decide_eq_true_eq]; exact hx, ?_⟩
  intro j hj
  simp only [decide_eq_false_iff_not]
  intro hjx
  have : E[j] = E[v] := by rw [hx]; exact hjx
  exact absurd ((List.Nodup.getElem_inj_iff hnd).1 this) (by omega)

theorem nodup_of_keys {E : List (DmcCell K × DmcCell K)} (h : (E.map cellKey).Nodup) : E.Nodup := List.Nodup.of_map _ h

theorem dualVertexId_mem {E : List (DmcCell K × DmcCell K)} {q : Fin 8 → DmcCell K} {e : Nat}
    (h : slotPair q e ∈ E) : E[dualVertexId E q e]? = some (slotPair q e) := by
  unfold dualVertexId
  have hex : E.findIdx (fun x => decide (x = (slotCell q e 0, slotCell q e 1))) < E.length := by
    rw [List.findIdx_lt_length]
    exact ⟨_, h, by simp [slotPair]⟩
  rw [List.getElem?_eq_getElem hex]
  have := List.findIdx_getElem (w := hex)
  rw [decide_eq_true_eq] at this
  rw [this]
  rfl

/-- The triangles do not change when more pairs are added. -/
theorem dualTriangles_prefix {E E' : List (DmcCell K × DmcCell K)} (hp : E <+: E') (hnd : E'.Nodup) {q : Fin 8 → DmcCell K}
    (hq : ∀ e < 12, crosses (dualMask q) e = true → slotPair q e ∈ E) : dualTriangles E' q = dualTriangles E q := by
  have hid : ∀ e < 12, crosses (dualMask q) e = true → dualVertexId E' q e = dualVertexId E q e := by
    intro e he hc
    exact dualVertexId_eq hnd (prefix_get hp (dualVertexId_mem (hq e he hc)))
  unfold dualTriangles
  congr 1
  apply List.map_congr_left
  intro t ht
  obtain ⟨l1, l2, l3, -, -, -, c1, c2, c3⟩ := (C14_triangle_table.2 _ (dualMask_lt q)).2.2.2.2 t ht
  rw [hid _ l1 c1, hid _ l2 c2, hid _ l3 c3]

theorem mcTable_get {m : Nat} (hm : m < 256) : kMcTriangleTable[m]? = some (kMcTriangleTable.getD m []) := by
  have : m < kMcTriangleTable.length := by rw [C14_triangle_table.1]; exact hm
  rw [List.getD_eq_getElem _ _ this, List.getElem?_eq_getElem this]

theorem emit_slots {q : Fin 8 → DmcCell K} {E0 E : List (DmcCell K × DmcCell K)} {idx : List Nat} {r : DmcState K × List Nat}
    (h : SlotInv normalize junk q E0 idx 12 r E) :
    emitTriangles (r.2.map some) (kMcTriangleTable.getD (dualMask q) []) r.1.mesh =
      some ⟨r.1.mesh.vertices, idx ++ flatTri (dualTriangles E q)⟩ := by
  have hnd := nodup_of_keys h.inv.nodup
  have := emitTriangles_any (r.2.map some) _ (rows_ok _ (dualMask_lt q)) r.1.mesh (dualVertexId E q) ?_
  · rw [this, h.idx]
    rfl
  · intro t ht
    obtain ⟨l1, l2, l3, -, -, -, c1, c2, c3⟩ := (C14_triangle_table.2 _ (dualMask_lt q)).2.2.2.2 t ht
    have key : ∀ i < 12, crosses (dualMask q) i = true →
        (r.2.map some)[i]? = some (some (dualVertexId E q i)) ∧ dualVertexId E q i < r.1.mesh.vertices.length := by
      intro i hi hc
      obtain ⟨v, hv, hE⟩ := h.found i hi hc
      rw [dualVertexId_eq hnd hE, List.getElem?_map, hv, h.inv.length]
      exact ⟨rfl, (List.getElem?_eq_some_iff.1 hE).1⟩
    rintro i (rfl | rfl | rfl)
    · exact key _ l1 c1
    · exact key _ l2 c2
    · exact key _ l3 c3

/-- What one dual cell does. -/
theorem vertLeaves_inv {Ok : DmcCell K × DmcCell K → Prop} (hOk : KeysOk Ok) {q : Fin 8 → DmcCell K} (hq : ∀ e < 12, Ok (slotPair q e))
    {E0 : List (DmcCell K × DmcCell K)} (hE0 : ∀ x ∈ E0, Ok x) {s s' : DmcState K} (h : DmcInv normalize junk s E0)
    (hs : dmcVertLeaves normalize junk (fun i => (q i).2) s = some s') :
    ∃ E, DmcInv normalize junk s' E ∧ E0 <+: E ∧ E.length ≤ E0.length + 12 ∧
      s'.mesh.indices = s.mesh.indices ++ flatTri (dualTriangles E q) ∧
      (∀ e < 12, crosses (dualMask q) e = true → slotPair q e ∈ E) ∧
      (∀ x ∈ E, x ∈ E0 ∨ ∃ e < 12, crosses (dualMask q) e = true ∧ x = slotPair q e) := by
  obtain ⟨w, hw, -, hbits⟩ := C14_edge_mask.2 _ (dualMask_lt q)
  unfold dmcVertLeaves at hs
  simp only [dmcMask_eq, hw, Option.bind_eq_bind, Option.bind_some, mcTable_get (dualMask_lt q)] at hs
  obtain ⟨r, hr, hs⟩ := Option.bind_eq_some_iff.1 hs
  obtain ⟨E, hE⟩ := slots_fold hOk hq hbits hE0 h 12 le_rfl hr
  rw [emit_slots hE] at hs
  simp only [Option.bind_some, Option.some.injEq] at hs
  subst hs
  refine ⟨E, ⟨hE.inv.map, hE.inv.nodup, hE.inv.verts⟩, hE.pre, hE.len, rfl, ?_, hE.mem⟩
  intro e he hc
  obtain ⟨v, -, hv⟩ := hE.found e he hc
  exact List.mem_of_getElem? hv

theorem vertLeaves_total {Ok : DmcCell K × DmcCell K → Prop} (hOk : KeysOk Ok) {q : Fin 8 → DmcCell K} (hq : ∀ e < 12, Ok (slotPair q e))
    {E0 : List (DmcCell K × DmcCell K)} (hE0 : ∀ x ∈ E0, Ok x) {s : DmcState K} (h : DmcInv normalize junk s E0)
    (hm : ∀ e < 12, crosses (dualMask q) e = true → dmcMaterial junk (slotPair q e).1.2 (slotPair q e).2.2 ≠ none)
    (hlen : E0.length + 12 < 2 ^ 32) : ∃ s', dmcVertLeaves normalize junk (fun i => (q i).2) s = some s' := by
  obtain ⟨w, hw, -, hbits⟩ := C14_edge_mask.2 _ (dualMask_lt q)
  obtain ⟨r, hr⟩ := slots_total hOk hq hbits hE0 h hm hlen 12 le_rfl
  obtain ⟨E, hE⟩ := slots_fold hOk hq hbits hE0 h 12 le_rfl hr
  unfold dmcVertLeaves
  simp only [dmcMask_eq, hw, Option.bind_eq_bind, Option.bind_some, mcTable_get (dualMask_lt q), hr, emit_slots hE]
  exact ⟨_, rfl⟩

/-! ### All dual cells -/

theorem dmcCall_leaf (s : DmcState K) (q : Fin 8 → DmcCell K) :
    dmcCall normalize junk s (fun i => Oct.leaf (q i).2) = dmcVertLeaves normalize junk (fun i => (q i).2) s := by
  unfold dmcCall
  simp only [dmcLeafOf, Option.bind_eq_bind, Option.bind_some]
  congr 1
  funext i
  fin_cases i <;> rfl

/-- The state after the dual cells `V`. -/
structure CellsInv (normalize : Vec3 K → Vec3 K) (junk : Nat → Option Material) (V : List (Fin 8 → DmcCell K)) (s : DmcState K)
    (E : List (DmcCell K × DmcCell K)) : Prop where
  inv : DmcInv normalize junk s E
  len : E.length ≤ 12 * V.length
  idx : s.mesh.indices = flatTri (V.flatMap (dualTriangles E))
  found : ∀ q ∈ V, ∀ e < 12, crosses (dualMask q) e = true → slotPair q e ∈ E
  mem : ∀ x ∈ E, ∃ q ∈ V, ∃ e < 12, crosses (dualMask q) e = true ∧ x = slotPair q e

theorem cells_step {Ok : DmcCell K × DmcCell K → Prop} (hOk : KeysOk Ok) {V : List (Fin 8 → DmcCell K)} {q : Fin 8 → DmcCell K}
    (hV : ∀ q ∈ V, ∀ e < 12, Ok (slotPair q e)) (hq : ∀ e < 12, Ok (slotPair q e)) {s s' : DmcState K}
    {E : List (DmcCell K × DmcCell K)} (h : CellsInv normalize junk V s E)
    (hs : dmcVertLeaves normalize junk (fun i => (q i).2) s = some s') :
    ∃ E', CellsInv normalize junk (V ++ [q]) s' E' := by
  have hE : ∀ x ∈ E, Ok x := by
    intro x hx
    obtain ⟨q, hq, e, he, -, rfl⟩ := h.mem x hx
    exact hV q hq e he
  obtain ⟨E', hinv, hpre, hlen, hidx, hfound, hmem⟩ := vertLeaves_inv hOk hq hE h.inv hs
  refine ⟨E', hinv, ?_, ?_, ?_, ?_⟩
  · have := h.len
    rw [List.length_append, List.length_singleton]; omega
  · rw [hidx, h.idx, List.flatMap_append, flatTri_append]
    congr 2
    · apply List.flatMap_congr
      intro q' hq'
      exact (dualTriangles_prefix hpre (nodup_of_keys hinv.nodup) (h.found q' hq')).symm
    · simp
  · intro q' hq' e he hc
    rcases List.mem_append.1 hq' with hq' | hq'
    · exact hpre.subset (h.found q' hq' e he hc)
    · rw [List.mem_singleton] at hq'
      subst hq'
      exact hfound e he hc
  · intro x hx
    rcases hmem x hx with hx | ⟨e, he, hc, rfl⟩
    · obtain ⟨q', hq', r⟩ := h.mem x hx
      exact ⟨q', List.mem_append_left _ hq', r⟩
    · exact ⟨q, List.mem_append_right _ (List.mem_singleton_self _), e, he, hc, rfl⟩

theorem cells_fold {Ok : DmcCell K × DmcCell K → Prop} (hOk : KeysOk Ok) (W : List (Fin 8 → DmcCell K)) :
    ∀ (V : List (Fin 8 → DmcCell K)) (s s' : DmcState K) (E : List (DmcCell K × DmcCell K)),
    (∀ q ∈ V ++ W, ∀ e < 12, Ok (slotPair q e)) → CellsInv normalize junk V s E →
    (W.map fun q i => Oct.leaf (q i).2).foldlM (dmcCall normalize junk) s = some s' →
    ∃ E', CellsInv normalize junk (V ++ W) s' E' := by
  induction W with
  | nil =>
    intro V s s' E _ h hs
    simp only [List.map_nil, List.foldlM_nil, Option.pure_def, Option.some.injEq] at hs
    subst hs
    exact ⟨E, by simpa using h⟩
  | cons q W ih =>
    intro V s s' E hV h hs
    rw [List.map_cons, List.foldlM_cons] at hs
    obtain ⟨s1, h1, h2⟩ := Option.bind_eq_some_iff.1 hs
    rw [dmcCall_leaf] at h1
    obtain ⟨E1, hE1⟩ := cells_step hOk (fun q' hq' => hV q' (List.mem_append_left _ hq')) (hV q (by simp)) h h1
    obtain ⟨E2, hE2⟩ := ih (V ++ [q]) s1 s' E1 (by simpa using hV) hE1 h2
    exact ⟨E2, by simpa using hE2⟩

theorem cells_total {Ok : DmcCell K × DmcCell K → Prop} (hOk : KeysOk Ok) (W : List (Fin 8 → DmcCell K)) :
    ∀ (V : List (Fin 8 → DmcCell K)) (s : DmcState K) (E : List (DmcCell K × DmcCell K)),
    (∀ q ∈ V ++ W, ∀ e < 12, Ok (slotPair q e)) → CellsInv normalize junk V s E →
    (∀ q ∈ W, ∀ e < 12, crosses (dualMask q) e = true → dmcMaterial junk (slotPair q e).1.2 (slotPair q e).2.2 ≠ none) →
    12 * (V ++ W).length < 2 ^ 32 →
    ∃ s', (W.map fun q i => Oct.leaf (q i).2).foldlM (dmcCall normalize junk) s = some s' := by
  induction W with
  | nil => intro V s E _ h _ _; exact ⟨s, rfl⟩
  | cons q W ih =>
    intro V s E hV h hm hlen
    have hVq := fun q' hq' => hV q' (List.mem_append_left (q :: W) hq')
    have hE : ∀ x ∈ E, Ok x := by
      intro x hx
      obtain ⟨q, hq, e, he, -, rfl⟩ := h.mem x hx
      exact hVq q hq e he
    have hl := h.len
    rw [List.length_append, List.length_cons] at hlen
    obtain ⟨s1, h1⟩ := vertLeaves_total (normalize := normalize) hOk (hV q (by simp)) hE h.inv (hm q (by simp)) (by omega)
    obtain ⟨E1, hE1⟩ := cells_step hOk hVq (hV q (by simp)) h h1
    obtain ⟨s2, h2⟩ := ih (V ++ [q]) s1 E1 (by simpa using hV) hE1 (fun q' hq' => hm q' (List.mem_cons_of_mem _ hq'))
      (by simp only [List.length_append, List.length_singleton]; omega)
    refine ⟨s2, ?_⟩
    rw [List.map_cons, List.foldlM_cons, dmcCall_leaf, h1]
    exact h2

end
end
end Isomesh
