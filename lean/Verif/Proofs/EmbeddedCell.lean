import Verif.Proofs.EmbeddedTable
import Verif.Proofs.CellVolume
import Verif.Spec.Embedded

/-! Marching cubes triangles of one cell: not degenerate, and any two of them are separated by a plane. -/

namespace Isomesh
open Spec

/-! ### Positive polynomials -/

/-- Positive inside the unit cube, by trying 0 and 1 for the given variables. -/
def positive : List Nat → List Mono → Bool
  | [], p => decide (0 < lowest p)
  | e :: es, p => decide (0 < lowest p) || (nonneg es (sub0 e p) && positive es (sub1 e p)) || (positive es (sub0 e p) && nonneg es (sub1 e p))

/-! ### Planes -/

def ivGet (n : IVec3) (a : Axis) : List Mono := if n.get a = 0 then [] else pconst (n.get a)

/-- Coordinates of the difference of two vertices. -/
def diffP (p q : Nat) (a : Axis) : List Mono := norm (coordP a q ++ pneg (coordP a p))

/-- The normal of a plane. -/
def planeN : CellPlane → Axis → List Mono
  | .flat n _, a => pmul (pconst 2) (ivGet n a)
  | .through n _, a => ivGet n a
  | .along w p q, .X => pmul (diffP p q .Y) (ivGet w .Z) ++ pneg (pmul (diffP p q .Z) (ivGet w .Y))
  | .along w p q, .Y => pmul (diffP p q .Z) (ivGet w .X) ++ pneg (pmul (diffP p q .X) (ivGet w .Z))
  | .along w p q, .Z => pmul (diffP p q .X) (ivGet w .Y) ++ pneg (pmul (diffP p q .Y) (ivGet w .X))

def dotP (N : Axis → List Mono) (v : Nat) : List Mono :=
  pmul (N .X) (coordP .X v) ++ pmul (N .Y) (coordP .Y v) ++ pmul (N .Z) (coordP .Z v)

/-- The offset of a plane. -/
def planeC : CellPlane → List Mono
  | .flat _ c => pconst c
  | .through n p => dotP (planeN (.through n p)) p
  | .along w p q => dotP (planeN (.along w p q)) p

/-- Signed distance of the vertex `v` from the plane, not normalised. -/
def distP (k : CellPlane) (v : Nat) : List Mono := norm (dotP (planeN k) v ++ pneg (planeC k))

def planeVars : CellPlane → List Nat
  | .flat _ _ => []
  | .through _ p => [p]
  | .along _ p q => [p, q]

def checkNonneg (k : CellPlane) (v : Nat) : Bool :=
  (distP k v).all (fun n => decide n.1.Nodup) && nonneg (v :: planeVars k) (distP k v)

def checkNeg (k : CellPlane) (v : Nat) : Bool :=
  (distP k v).all (fun n => decide n.1.Nodup) && positive (v :: planeVars k) (pneg (distP k v))

def tripleList (t : Nat × Nat × Nat) : List Nat := [t.1, t.2.1, t.2.2]

/-- The plane separates: the first triangle is on it or above, the second below except for common vertices, which lie on it. -/
def checkPlane (A B : Nat × Nat × Nat) (k : CellPlane) : Bool :=
  (tripleList A).all (checkNonneg k) &&
  (tripleList B).all (fun v => if (tripleList A).contains v then (distP k v).isEmpty else checkNeg k v) &&
  !((tripleList B).all fun v => (tripleList A).contains v)

def checkPair (A B : Nat × Nat × Nat) (e : Bool × CellPlane) : Bool := if e.1 then checkPlane B A e.2 else checkPlane A B e.2

/-- All pairs of a list. -/
def pairsOf {α : Type} : List α → List (α × α)
  | [] => []
  | x :: l => l.map (fun y => (x, y)) ++ pairsOf l

def checkArea (t : Nat × Nat × Nat) : Bool :=
  [areaP .Y .Z t, areaP .Z .X t, areaP .X .Y t].any fun p =>
    (norm p).all (fun n => decide n.1.Nodup) && (positive (tripleList t) (norm p) || positive (tripleList t) (pneg (norm p)))

def checkEmbedded (m : Nat) : Bool :=
  let L := pairsOf (mcTriangles m)
  let C := cellPlanes.getD m []
  decide (L.length = C.length) && (List.zipWith (fun q e => checkPair q.1 q.2 e) L C).all id && (mcTriangles m).all checkArea

def checkEmbeddeds (lo n : Nat) : Bool := (List.range n).all fun k => checkEmbedded (lo + k)

theorem checkEmbeddeds_0 : checkEmbeddeds 0 64 = true := by decide +kernel
theorem checkEmbeddeds_1 : checkEmbeddeds 64 64 = true := by decide +kernel
theorem checkEmbeddeds_2 : checkEmbeddeds 128 64 = true := by decide +kernel
theorem checkEmbeddeds_3 : checkEmbeddeds 192 64 = true := by decide +kernel

theorem checkEmbedded_true {m : Nat} (hm : m < 256) : checkEmbedded m = true := by
  have key : ∀ lo, checkEmbeddeds lo 64 = true → lo ≤ m → m < lo + 64 → checkEmbedded m = true := by
    intro lo h h1 h2
    have := List.all_eq_true.mp h (m - lo) (List.mem_range.mpr (by omega))
    rwa [show lo + (m - lo) = m by omega] at this
  have hc : m < 64 ∨ (64 ≤ m ∧ m < 128) ∨ (128 ≤ m ∧ m < 192) ∨ 192 ≤ m := by omega
  rcases hc with h | h | h | h
  · exact key 0 checkEmbeddeds_0 (by omega) (by omega)
  · exact key 64 checkEmbeddeds_1 (by omega) (by omega)
  · exact key 128 checkEmbeddeds_2 (by omega) (by omega)
  · exact key 192 checkEmbeddeds_3 (by omega) (by omega)

theorem pairs_pairwise {α : Type} {R : α → α → Prop} : ∀ (l : List α), (∀ q ∈ pairsOf l, R q.1 q.2) → l.Pairwise R
  | [], _ => List.Pairwise.nil
  | x :: l, h => by
    refine List.Pairwise.cons (fun y hy => ?_) (pairs_pairwise l fun q hq => h q ?_)
    · exact h (x, y) (List.mem_append_left _ (List.mem_map.2 ⟨y, hy, rfl⟩))
    · exact List.mem_append_right _ hq

theorem zip_all {α β : Type} (f : α → β → Bool) : ∀ (L : List α) (C : List β), L.length = C.length →
    (List.zipWith f L C).all id = true → ∀ q ∈ L, ∃ e, f q e = true
  | [], _, _, _, _, hq => by cases hq
  | x :: L, [], hl, _, _, _ => by simp at hl
  | x :: L, c :: C, hl, h, q, hq => by
    rw [List.zipWith_cons_cons, List.all_cons, Bool.and_eq_true] at h
    rcases List.mem_cons.1 hq with rfl | hq
    · exact ⟨c, h.1⟩
    · exact zip_all f L C (by simpa using hl) h.2 q hq

variable {K : Type} [Field K] [LinearOrder K] [IsStrictOrderedRing K]

theorem positive_sound {t : Nat → K} (ht : ∀ i, 0 < t i ∧ t i < 1) : ∀ (es : List Nat) (p : List Mono), (∀ m ∈ p, m.1.Nodup) →
    positive es p = true → 0 < evalPoly t p
  | [], p, _, h => by
    have h : 0 < lowest p := by simpa [positive] using h
    exact lt_of_lt_of_le (by exact_mod_cast h) (lowest_le (fun i => ⟨(ht i).1.le, (ht i).2.le⟩) p)
  | e :: es, p, hp, h => by
    have ht' : ∀ i, 0 ≤ t i ∧ t i ≤ 1 := fun i => ⟨(ht i).1.le, (ht i).2.le⟩
    have n0 : ∀ m ∈ sub0 e p, m.1.Nodup := fun m hm => hp m (List.mem_of_mem_filter hm)
    have n1 : ∀ m ∈ sub1 e p, m.1.Nodup := fun m hm => by
      obtain ⟨n, hn, rfl⟩ := List.mem_map.mp hm
      exact (hp n hn).erase e
    have he1 : 0 < 1 - t e := by linarith [(ht e).2]
    rw [positive, Bool.or_eq_true, Bool.or_eq_true, Bool.and_eq_true, Bool.and_eq_true] at h
    rcases h with (h | ⟨h0, h1⟩) | ⟨h0, h1⟩
    · have h : 0 < lowest p := by simpa using h
      exact lt_of_lt_of_le (by exact_mod_cast h) (lowest_le ht' p)
    · have k0 := nonneg_sound ht' es _ n0 h0
      have k1 := positive_sound ht es _ n1 h1
      rw [eval_split t e p hp]
      exact add_pos_of_nonneg_of_pos (mul_nonneg he1.le k0) (mul_pos (ht e).1 k1)
    · have k0 := positive_sound ht es _ n0 h0
      have k1 := nonneg_sound ht' es _ n1 h1
      rw [eval_split t e p hp]
      exact add_pos_of_pos_of_nonneg (mul_pos he1 k0) (mul_nonneg (ht e).1.le k1)

theorem pneg_nodup {p : List Mono} (h : ∀ m ∈ p, m.1.Nodup) : ∀ m ∈ pneg p, m.1.Nodup := by
  intro m hm
  obtain ⟨n, hn, rfl⟩ := List.mem_map.1 hm
  exact h n hn

/-- The normal of the plane for given positions. -/
def planeNormal (t : Nat → K) (k : CellPlane) : Vec3 K := ⟨evalPoly t (planeN k .X), evalPoly t (planeN k .Y), evalPoly t (planeN k .Z)⟩

theorem eval_distP (t : Nat → K) (k : CellPlane) {v : Nat} (hv : v < 12) :
    evalPoly t (distP k v) = (planeNormal t k).dot (relPoint v (t v)) - evalPoly t (planeC k) := by
  unfold distP dotP planeNormal
  rw [eval_norm]
  simp only [eval_append, eval_neg, eval_mul, eval_coordP t hv, Vec3.dot, Vec3.get]
  ring

theorem eval_pneg_pos {t : Nat → K} {p : List Mono} (h : 0 < evalPoly t (pneg p)) : evalPoly t p < 0 := by
  rw [eval_neg] at h
  linarith

/-- What a separating plane gives. -/
def Separates (pos : Nat → Vec3 K) (A B : Nat × Nat × Nat) (n : Vec3 K) (c : K) : Prop :=
  (∀ v ∈ tripleList A, 0 ≤ n.dot (pos v) - c) ∧ (∀ v ∈ tripleList B, v ∈ tripleList A → n.dot (pos v) - c = 0) ∧
  (∀ v ∈ tripleList B, v ∉ tripleList A → n.dot (pos v) - c < 0) ∧ ∃ v ∈ tripleList B, v ∉ tripleList A

theorem checkPlane_sound {t : Nat → K} (ht : ∀ i, 0 < t i ∧ t i < 1) {A B : Nat × Nat × Nat} (hA : ∀ v ∈ tripleList A, v < 12)
    (hB : ∀ v ∈ tripleList B, v < 12) {k : CellPlane} (h : checkPlane A B k = true) :
    Separates (fun v => relPoint v (t v)) A B (planeNormal t k) (evalPoly t (planeC k)) := by
  have ht' : ∀ i, 0 ≤ t i ∧ t i ≤ 1 := fun i => ⟨(ht i).1.le, (ht i).2.le⟩
  rw [checkPlane, Bool.and_eq_true, Bool.and_eq_true] at h
  obtain ⟨⟨h1, h2⟩, h3⟩ := h
  rw [List.all_eq_true] at h1 h2
  refine ⟨fun v hv => ?_, fun v hv hv' => ?_, fun v hv hv' => ?_, ?_⟩
  · have := h1 v hv
    rw [checkNonneg, Bool.and_eq_true, List.all_eq_true] at this
    have hn : ∀ m ∈ distP k v, m.1.Nodup := fun m hm => by simpa using this.1 m hm
    rw [← eval_distP t k (hA v hv)]
    exact nonneg_sound ht' _ _ hn this.2
  · have := h2 v hv
    rw [if_pos (by simpa using hv')] at this
    rw [← eval_distP t k (hB v hv), List.isEmpty_iff.1 this]
    rfl
  · have := h2 v hv
    rw [if_neg (by simpa using hv')] at this
    rw [checkNeg, Bool.and_eq_true, List.all_eq_true] at this
    have hn : ∀ m ∈ distP k v, m.1.Nodup := fun m hm => by simpa using this.1 m hm
    rw [← eval_distP t k (hB v hv)]
    exact eval_pneg_pos (positive_sound ht _ _ (pneg_nodup hn) this.2)
  · by_contra hc
    push Not at hc
    have : (tripleList B).all (fun v => (tripleList A).contains v) = true := by
      rw [List.all_eq_true]
      intro v hv
      simpa using hc v hv
    rw [this] at h3
    cases h3

/-- Any two triangles of a cell are separated by a plane. -/
theorem cell_separated {m : Nat} (hm : m < 256) {t : Nat → K} (ht : ∀ i, 0 < t i ∧ t i < 1) :
    (mcTriangles m).Pairwise fun A B => ∃ n c, Separates (fun v => relPoint v (t v)) A B n c ∨ Separates (fun v => relPoint v (t v)) B A n c := by
  have h := checkEmbedded_true hm
  rw [checkEmbedded, Bool.and_eq_true, Bool.and_eq_true, decide_eq_true_eq] at h
  obtain ⟨⟨h1, h2⟩, -⟩ := h
  have hlt : ∀ A ∈ mcTriangles m, ∀ v ∈ tripleList A, v < 12 := by
    intro A hA v hv
    obtain ⟨-, -, -, -, htab⟩ := C14_triangle_table.2 _ hm
    obtain ⟨l1, l2, l3, -⟩ := htab A hA
    simp only [tripleList, List.mem_cons, List.not_mem_nil, or_false] at hv
    rcases hv with rfl | rfl | rfl <;> assumption
  have key : ∀ q ∈ pairsOf (mcTriangles m), ∃ e, checkPair q.1 q.2 e = true :=
    zip_all (fun (q : (Nat × Nat × Nat) × (Nat × Nat × Nat)) e => checkPair q.1 q.2 e) _ _ h1 h2
  have hpw := pairs_pairwise (R := fun A B => ∃ e, checkPair A B e = true) _ key
  refine hpw.imp_of_mem ?_
  rintro A B hA hB ⟨⟨b, k⟩, he⟩
  rw [checkPair] at he
  cases b with
  | false => exact ⟨_, _, Or.inl (checkPlane_sound ht (hlt A hA) (hlt B hB) (by simpa using he))⟩
  | true => exact ⟨_, _, Or.inr (checkPlane_sound ht (hlt B hB) (hlt A hA) (by simpa using he))⟩

/-- The triangles of a cell are not degenerate. -/
theorem cell_area {m : Nat} (hm : m < 256) {t : Nat → K} (ht : ∀ i, 0 < t i ∧ t i < 1) {T : Nat × Nat × Nat} (hT : T ∈ mcTriangles m) :
    doubleArea (relPoint T.1 (t T.1)) (relPoint T.2.1 (t T.2.1)) (relPoint T.2.2 (t T.2.2)) ≠ (⟨0, 0, 0⟩ : Vec3 K) := by
  have h := checkEmbedded_true hm
  rw [checkEmbedded, Bool.and_eq_true, Bool.and_eq_true] at h
  have h := List.all_eq_true.1 h.2 T hT
  obtain ⟨-, -, -, -, htab⟩ := C14_triangle_table.2 _ hm
  obtain ⟨l1, l2, l3, -⟩ := htab T hT
  rw [checkArea, List.any_eq_true] at h
  obtain ⟨p, hp, hc⟩ := h
  rw [Bool.and_eq_true, List.all_eq_true, Bool.or_eq_true] at hc
  have hn : ∀ m ∈ norm p, m.1.Nodup := fun m hm => by simpa using hc.1 m hm
  have hne : evalPoly t p ≠ 0 := by
    rcases hc.2 with h | h
    · have := positive_sound ht _ _ hn h
      rw [eval_norm] at this
      exact this.ne'
    · have := eval_pneg_pos (positive_sound ht _ _ (pneg_nodup hn) h)
      rw [eval_norm] at this
      exact this.ne
  intro e
  apply hne
  simp only [doubleArea, Vec3.cross, Vec3.sub, Vec3.mk.injEq] at e
  obtain ⟨e1, e2, e3⟩ := e
  have ha : ∀ a b : Axis, evalPoly t (areaP a b T) = _ := fun a b => by
    simp only [areaP, crossP, eval_append, eval_neg, eval_mul, eval_coordP t l1, eval_coordP t l2, eval_coordP t l3]
    rfl
  simp only [List.mem_cons, List.not_mem_nil, or_false] at hp
  rcases hp with rfl | rfl | rfl <;> rw [ha] <;> simp only [Vec3.get] <;> linarith

end Isomesh
