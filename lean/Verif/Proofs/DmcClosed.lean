import Verif.Proofs.McTables
import Verif.Proofs.Push
import Verif.Props.DcClosed
import Verif.Props.OctreeVert
import Verif.Props.DmcOctree

/-! Proofs for C62: the surface on the dual grid is closed. -/

namespace Isomesh
open Spec

set_option linter.unusedSectionVars false
variable {K : Type} [Add K] [_root_.Sub K] [Mul K] [Div K] [Neg K] [Zero K] [One K] [OfNat K 2] [OfScientific K] [NatCast K] [IntCast K]
  [Fabs K] [Elem K] [LinearOrder K] [RoundedLaws K]

/-! ### Sums over the sides of the triangles of one pattern -/

/-- Sum over the sides that lie in the face `f` of the cell. -/
def faceSum (f m : Nat) (φ : Nat × Nat → Int) : Int :=
  ∑ s ∈ (sides (mcTriangles m)).toFinset, if inFace f s.1 = true ∧ inFace f s.2 = true then φ s else 0

theorem sides_nodup {m : Nat} (hm : m < 256) : (sides (mcTriangles m)).Nodup := by
  rw [List.nodup_iff_count_le_one]
  intro s
  by_cases h : s ∈ sides (mcTriangles m)
  · exact (sides_table hm h).2.2.2.1.le
  · rw [List.count_eq_zero_of_not_mem h]; omega

theorem coface_comm (i j : Nat) : coface i j = coface j i := by
  unfold coface
  congr 1
  funext f
  exact Bool.and_comm _ _

theorem side_sum {m : Nat} (hm : m < 256) (φ : Nat × Nat → Int) (hφ : ∀ i j, φ (j, i) = - φ (i, j)) :
    ((sides (mcTriangles m)).map φ).sum = ∑ f ∈ Finset.range 6, faceSum f m φ := by
  rw [← List.sum_toFinset _ (sides_nodup hm)]
  unfold faceSum
  rw [Finset.sum_comm]
  have h1 : ∀ s ∈ (sides (mcTriangles m)).toFinset,
      (∑ f ∈ Finset.range 6, if inFace f s.1 = true ∧ inFace f s.2 = true then φ s else 0) =
        if coface s.1 s.2 = true then φ s else 0 := by
    intro s hs
    rw [List.mem_toFinset] at hs
    obtain ⟨a1, a2, a3, -, -⟩ := sides_table hm hs
    split
    · rename_i hc
      unfold coface at hc
      rw [List.any_eq_true] at hc
      obtain ⟨f, hf, hc⟩ := hc
      rw [List.mem_range] at hf
      rw [Bool.and_eq_true] at hc
      rw [Finset.sum_eq_single f]
      · rw [if_pos hc]
      · intro f' hf' hne
        rw [if_neg]
        intro h'
        rw [Finset.mem_range] at hf'
        exact hne (coface_unique f' hf' f hf s.1 a1 s.2 a2 a3 h'.1 h'.2 hc.1 hc.2)
      · intro h'
        exact absurd (Finset.mem_range.2 hf) h'
    · rename_i hc
      refine Finset.sum_eq_zero fun f hf => ?_
      rw [if_neg]
      intro h'
      apply hc
      unfold coface
      rw [List.any_eq_true]
      exact ⟨f, List.mem_range.2 (Finset.mem_range.1 hf), by rw [Bool.and_eq_true]; exact h'⟩
  rw [Finset.sum_congr rfl h1]
  have h2 : ∑ s ∈ (sides (mcTriangles m)).toFinset.filter (fun s => ¬ coface s.1 s.2 = true), φ s = 0 := by
    refine Finset.sum_involution (fun s _ => (s.2, s.1)) ?_ ?_ ?_ ?_
    · intro s _
      rw [hφ s.1 s.2]
      ring
    · intro s hs _ he
      have := (sides_table hm (List.mem_toFinset.1 (Finset.mem_filter.1 hs).1)).2.2.1
      rw [Prod.ext_iff] at he
      exact this he.2
    · intro s hs
      obtain ⟨hs, hc⟩ := Finset.mem_filter.1 hs
      have := (sides_table hm (List.mem_toFinset.1 hs)).2.2.2.2
      rw [if_neg hc] at this
      refine Finset.mem_filter.2 ⟨?_, ?_⟩
      · rw [List.mem_toFinset, ← List.count_pos_iff]
        omega
      · dsimp only
        rw [coface_comm]
        exact hc
    · intro s _; rfl
  rw [← Finset.sum_filter_add_sum_filter_not _ (fun s : Nat × Nat => coface s.1 s.2 = true), h2, add_zero, Finset.sum_filter]

/-- Corners of the face `f` and their mirror images. -/
theorem flip_table' : ∀ f < 6, ∀ c < 8, flipCorner f c < 8 ∧ flipCorner f (flipCorner f c) = c ∧
    flipCorner (oppFace f) c = flipCorner f c ∧
    (((cornerPos c).get (faceAxis f) = faceSide f) ↔ (cornerPos (flipCorner f c)).get (faceAxis f) = 1 - faceSide f) ∧
    ((cornerPos c).get (faceAxis f) = faceSide f →
      (cornerPos c).x = (faceDir f).x + (cornerPos (flipCorner f c)).x ∧
      (cornerPos c).y = (faceDir f).y + (cornerPos (flipCorner f c)).y ∧
      (cornerPos c).z = (faceDir f).z + (cornerPos (flipCorner f c)).z) ∧
    faceAxis (oppFace f) = faceAxis f ∧ faceSide (oppFace f) = 1 - faceSide f := by decide +kernel

theorem slot_table' : ∀ f < 6, ∀ i < 12, inFace f i = true →
    (∀ k < 2, edgeCorner (oppSlot f i) k = flipCorner f (edgeCorner i k) ∧ edgeCorner i k < 8 ∧
      (cornerPos (edgeCorner i k)).get (faceAxis f) = faceSide f) := by decide +kernel

theorem opp_face : ∀ f < 6, oppFace f < 6 ∧ oppFace (oppFace f) = f := by decide

theorem mirror_mask {f m m' : Nat} (hf : f < 6)
    (hb : ∀ c < 8, (cornerPos c).get (faceAxis f) = faceSide f → m'.testBit (flipCorner f c) = m.testBit c) :
    mirrorMask f m = m' &&& faceMask (oppFace f) := by
  refine Nat.eq_of_testBit_eq fun c => ?_
  unfold mirrorMask faceMask
  rw [Nat.testBit_and, testBit_maskOf, testBit_maskOf]
  by_cases hc : c < 8
  · obtain ⟨t1, t2, -, t3, -, t4, t5⟩ := flip_table' f hf c hc
    rw [t4, t5]
    by_cases hp : (cornerPos c).get (faceAxis f) = 1 - faceSide f
    · obtain ⟨-, -, -, u3, -⟩ := flip_table' f hf _ t1
      rw [t2] at u3
      have := hb _ t1 (u3.2 hp)
      rw [t2] at this
      simp [hc, hp, this]
    · simp [hp]
  · simp [hc]

theorem mirror_mem {f m m' : Nat} (hf : f < 6) (hm : m < 256) (hm' : m' < 256)
    (hb : ∀ c < 8, (cornerPos c).get (faceAxis f) = faceSide f → m'.testBit (flipCorner f c) = m.testBit c)
    {s : Nat × Nat} (hs : s ∈ sides (mcTriangles m)) (hi : inFace f s.1 = true) (hj : inFace f s.2 = true) :
    (oppSlot f s.2, oppSlot f s.1) ∈ sides (mcTriangles m') ∧ inFace (oppFace f) (oppSlot f s.2) = true ∧
      inFace (oppFace f) (oppSlot f s.1) = true := by
  obtain ⟨a1, a2, -⟩ := sides_table hm hs
  have h := sides_mirror hm hf hs hi hj
  rw [mirror_mask hf hb] at h
  obtain ⟨-, b2, -, -, -, -, -, b3, -⟩ := opp_table f hf _ a1 hi
  obtain ⟨-, c2, -⟩ := opp_table f hf _ a2 hj
  exact ⟨sides_face hm' b3 h c2 b2, c2, b2⟩

theorem faceSum_mirror {f m m' : Nat} (hf : f < 6) (hm : m < 256) (hm' : m' < 256)
    (hb : ∀ c < 8, (cornerPos c).get (faceAxis f) = faceSide f → m'.testBit (flipCorner f c) = m.testBit c)
    (φ φ' : Nat × Nat → Int) (hφ : ∀ i < 12, ∀ j < 12, inFace f i = true → inFace f j = true →
      φ' (oppSlot f j, oppSlot f i) = - φ (i, j)) : faceSum f m φ = - faceSum (oppFace f) m' φ' := by
  have hf' : oppFace f < 6 ∧ oppFace (oppFace f) = f := opp_face f hf
  have hb' : ∀ c < 8, (cornerPos c).get (faceAxis (oppFace f)) = faceSide (oppFace f) →
      m.testBit (flipCorner (oppFace f) c) = m'.testBit c := by
    intro c hc hp
    obtain ⟨t1, t2, t0, t3, -, t4, t5⟩ := flip_table' f hf c hc
    rw [t4, t5] at hp
    obtain ⟨-, -, -, u3, -⟩ := flip_table' f hf _ t1
    rw [t2] at u3
    have := hb _ t1 (u3.2 hp)
    rw [t2] at this
    rw [t0, this]
  unfold faceSum
  rw [← Finset.sum_filter, ← Finset.sum_filter, ← Finset.sum_neg_distrib]
  refine Finset.sum_bij' (fun s _ => (oppSlot f s.2, oppSlot f s.1)) (fun s _ => (oppSlot (oppFace f) s.2, oppSlot (oppFace f) s.1))
    ?_ ?_ ?_ ?_ ?_
  · intro s hs
    obtain ⟨hs, hi, hj⟩ := Finset.mem_filter.1 hs
    obtain ⟨r1, r2⟩ := mirror_mem hf hm hm' hb (List.mem_toFinset.1 hs) hi hj
    exact Finset.mem_filter.2 ⟨List.mem_toFinset.2 r1, r2⟩
  · intro s hs
    obtain ⟨hs, hi, hj⟩ := Finset.mem_filter.1 hs
    obtain ⟨r1, r2⟩ := mirror_mem hf'.1 hm' hm hb' (List.mem_toFinset.1 hs) hi hj
    rw [hf'.2] at r2
    exact Finset.mem_filter.2 ⟨List.mem_toFinset.2 r1, r2⟩
  · intro s hs
    obtain ⟨hs, hi, hj⟩ := Finset.mem_filter.1 hs
    obtain ⟨a1, a2, -⟩ := sides_table hm (List.mem_toFinset.1 hs)
    exact Prod.ext (opp_table f hf _ a1 hi).2.2.1 (opp_table f hf _ a2 hj).2.2.1
  · intro s hs
    obtain ⟨hs, hi, hj⟩ := Finset.mem_filter.1 hs
    obtain ⟨a1, a2, -⟩ := sides_table hm' (List.mem_toFinset.1 hs)
    have e1 := (opp_table _ hf'.1 _ a1 hi).2.2.1
    have e2 := (opp_table _ hf'.1 _ a2 hj).2.2.1
    rw [hf'.2] at e1 e2
    exact Prod.ext e1 e2
  · intro s hs
    obtain ⟨hs, hi, hj⟩ := Finset.mem_filter.1 hs
    obtain ⟨a1, a2, -⟩ := sides_table hm (List.mem_toFinset.1 hs)
    rw [hφ s.1 a1 s.2 a2 hi hj]
    simp

theorem side_crosses {m : Nat} (hm : m < 256) {s : Nat × Nat} (hs : s ∈ sides (mcTriangles m)) :
    crosses m s.1 = true ∧ crosses m s.2 = true := by
  unfold sides at hs
  rw [List.mem_flatMap] at hs
  obtain ⟨t, ht, hs⟩ := hs
  obtain ⟨-, -, -, -, -, -, h1, h2, h3⟩ := (C14_triangle_table.2 m hm).2.2.2.2 t ht
  simp only [List.mem_cons, List.not_mem_nil, or_false] at hs
  rcases hs with rfl | rfl | rfl <;> constructor <;> assumption

def checkFlat : Bool :=
  (List.range 6).all fun f => (List.range 6).all fun g => decide (faceAxis f = faceAxis g) ||
    (List.range 12).all fun i => (List.range 12).all fun j => decide (i = j) || !(inFace f i) || !(inFace f j) ||
      decide (edgeCorner i 1 = flipCorner g (edgeCorner i 0)) || decide (edgeCorner j 1 = flipCorner g (edgeCorner j 0)) ||
      (decide (edgeCorner j 0 = flipCorner g (edgeCorner i 0)) && decide (edgeCorner j 1 = flipCorner g (edgeCorner i 1)))

theorem checkFlat_true : checkFlat = true := by decide +kernel

theorem flat_table {f g i j : Nat} (hf : f < 6) (hg : g < 6) (hfg : faceAxis f ≠ faceAxis g) (hi : i < 12) (hj : j < 12)
    (hij : i ≠ j) (fi : inFace f i = true) (fj : inFace f j = true) :
    (edgeCorner i 1 = flipCorner g (edgeCorner i 0)) ∨ (edgeCorner j 1 = flipCorner g (edgeCorner j 0)) ∨
      (edgeCorner j 0 = flipCorner g (edgeCorner i 0) ∧ edgeCorner j 1 = flipCorner g (edgeCorner i 1)) := by
  have h := checkFlat_true
  unfold checkFlat at h
  simp only [List.all_eq_true, List.mem_range] at h
  have h := h f hf g hg
  rw [decide_eq_false hfg, Bool.false_or, List.all_eq_true] at h
  have h := h i (List.mem_range.2 hi)
  rw [List.all_eq_true] at h
  have h := h j (List.mem_range.2 hj)
  rw [decide_eq_false hij, fi, fj] at h
  simpa [or_assoc] using h

/-! ### Dual cells at all lattice points -/

noncomputable section
open scoped Classical

/-- The leaf that contains a cell (something else if there is none). -/
def leafAt (t : DmcNode K) (c : Cube) (u : IVec3) : DmcCell K :=
  ((locate t c).leaves.find? fun A => decide (A.1.Has u)).getD (c, ⟨0, ⟨0, 0, 0⟩, 0, ⟨0, 0, 0⟩, none⟩)

theorem leafAt_eq {t : DmcNode K} {c : Cube} (hh : t.height ≤ c.k) {A : DmcCell K} (hA : A ∈ (locate t c).leaves) {u : IVec3}
    (hu : A.1.Has u) : leafAt t c u = A := by
  unfold leafAt
  cases hf : (locate t c).leaves.find? fun A => decide (A.1.Has u) with
  | none =>
    have := List.find?_eq_none.1 hf A hA
    simp [hu] at this
  | some B =>
    have h1 := List.mem_of_find?_eq_some hf
    have h2 := List.find?_some hf
    simp only [decide_eq_true_eq] at h2
    exact leaf_unique (placed_locate t c hh) B h1 A hA u h2 hu

theorem leafAt_mem {t : DmcNode K} {c : Cube} (hh : t.height ≤ c.k) {u : IVec3} (hu : c.Has u) :
    leafAt t c u ∈ (locate t c).leaves ∧ (leafAt t c u).1.Has u := by
  obtain ⟨A, hA, hAu⟩ := leaf_exists (placed_locate t c hh) u hu
  rw [leafAt_eq hh hA hAu]
  exact ⟨hA, hAu⟩

/-- The leaves in the octants around a lattice point. -/
def dualCell (t : DmcNode K) (c : Cube) (p : IVec3) : Fin 8 → DmcCell K := fun i => leafAt t c (vertCorner p 1 i)

/-- Contribution of a side with end numbers `i`, `j` to the side from `a` to `b`. -/
def dmcSideNet (E : List (DmcCell K × DmcCell K)) (q : Fin 8 → DmcCell K) (a b : Nat) (s : Nat × Nat) : Int :=
  ind (dualVertexId E q s.1) (dualVertexId E q s.2) a b - ind (dualVertexId E q s.1) (dualVertexId E q s.2) b a

theorem dmcSideNet_swap (E : List (DmcCell K × DmcCell K)) (q : Fin 8 → DmcCell K) (a b : Nat) (i j : Nat) :
    dmcSideNet E q a b (j, i) = - dmcSideNet E q a b (i, j) := by
  unfold dmcSideNet
  dsimp only
  rw [ind_swap (dualVertexId E q j), ind_swap (dualVertexId E q j)]
  ring

theorem netSides_map (T : List (Nat × Nat × Nat)) (f : Nat → Nat) (a b : Nat) :
    netSides (T.map fun t => (f t.1, f t.2.1, f t.2.2)) a b =
      ((sides T).map fun s => ind (f s.1) (f s.2) a b - ind (f s.1) (f s.2) b a).sum := by
  induction T with
  | nil => simp [netSides_nil, sides]
  | cons t T ih =>
    rw [List.map_cons, netSides_cons, ih, netSides_one]
    unfold sides
    rw [List.flatMap_cons, List.map_append, List.sum_append]
    simp only [List.map_cons, List.map_nil, List.sum_cons, List.sum_nil]
    ring

theorem dualTriangles_net (E : List (DmcCell K × DmcCell K)) (q : Fin 8 → DmcCell K) (a b : Nat) :
    netSides (dualTriangles E q) a b = ∑ f ∈ Finset.range 6, faceSum f (dualMask q) (dmcSideNet E q a b) := by
  unfold dualTriangles
  have h := netSides_filter ((mcTriangles (dualMask q)).map fun t =>
    (dualVertexId E q t.1, dualVertexId E q t.2.1, dualVertexId E q t.2.2)) a b
  rw [h, netSides_map, ← side_sum (dualMask_lt q) _ (dmcSideNet_swap E q a b)]
  rfl

theorem dualMask_bit (q : Fin 8 → DmcCell K) {i : Nat} (hi : i < 8) :
    (dualMask q).testBit i = decide ((q (Fin.ofNat 8 i)).2.w ≤ 0) := by
  unfold dualMask
  rw [testBit_maskOf]
  simp [hi]

/-- Two dual cells with a common face: their parts of the surface agree on it. -/
theorem face_opposite (E : List (DmcCell K × DmcCell K)) {q q' : Fin 8 → DmcCell K} {f : Nat} (hf : f < 6)
    (h : ∀ c < 8, (cornerPos c).get (faceAxis f) = faceSide f → q' (Fin.ofNat 8 (flipCorner f c)) = q (Fin.ofNat 8 c)) (a b : Nat) :
    faceSum f (dualMask q) (dmcSideNet E q a b) = - faceSum (oppFace f) (dualMask q') (dmcSideNet E q' a b) := by
  refine faceSum_mirror hf (dualMask_lt _) (dualMask_lt _) ?_ _ _ ?_
  · intro c hc hp
    rw [dualMask_bit _ (flip_table' f hf c hc).1, dualMask_bit _ hc, h c hc hp]
  · have hid : ∀ i < 12, inFace f i = true → dualVertexId E q' (oppSlot f i) = dualVertexId E q i := by
      intro i hi hfi
      have hs := slot_table' f hf i hi hfi
      obtain ⟨a1, a2, a3⟩ := hs 0 (by omega)
      obtain ⟨b1, b2, b3⟩ := hs 1 (by omega)
      unfold dualVertexId slotCell
      rw [a1, b1, h _ a2 a3, h _ b2 b3]
    intro i hi j hj hfi hfj
    have e := dmcSideNet_swap E q a b i j
    rw [← e]
    unfold dmcSideNet
    dsimp only
    rw [hid i hi hfi, hid j hj hfj]

/-- No surface in a face whose corners have the same sign; and in general a contribution needs a side in the face. -/
theorem faceSum_ne {f : Nat} {q : Fin 8 → DmcCell K} {E : List (DmcCell K × DmcCell K)} {a b : Nat}
    (h : faceSum f (dualMask q) (dmcSideNet E q a b) ≠ 0) :
    ∃ i < 12, ∃ j < 12, inFace f i = true ∧ inFace f j = true ∧ crosses (dualMask q) i = true ∧ crosses (dualMask q) j = true ∧
      dualVertexId E q i = a ∧ dualVertexId E q j = b := by
  obtain ⟨s, hs, h⟩ := Finset.exists_ne_zero_of_sum_ne_zero h
  rw [List.mem_toFinset] at hs
  obtain ⟨c1, c2⟩ := side_crosses (dualMask_lt q) hs
  obtain ⟨a1, a2, -⟩ := sides_table (dualMask_lt q) hs
  by_cases hf : inFace f s.1 = true ∧ inFace f s.2 = true
  · rw [if_pos hf] at h
    unfold dmcSideNet ind at h
    by_cases h1 : dualVertexId E q s.1 = a ∧ dualVertexId E q s.2 = b
    · exact ⟨s.1, a1, s.2, a2, hf.1, hf.2, c1, c2, h1.1, h1.2⟩
    · by_cases h2 : dualVertexId E q s.1 = b ∧ dualVertexId E q s.2 = a
      · exact ⟨s.2, a2, s.1, a1, hf.2, hf.1, c2, c1, h2.2, h2.1⟩
      · rw [if_neg h1, if_neg h2] at h
        exact absurd rfl h
  · rw [if_neg hf] at h
    exact absurd rfl h

/-! ### Flat points -/

/-- A dual cell without extent along the axis of the face `g` contributes nothing. -/
theorem dmc_flat_cell {E : List (DmcCell K × DmcCell K)} {q : Fin 8 → DmcCell K} {g : Nat} (hg : g < 6)
    (h : ∀ c < 8, q (Fin.ofNat 8 (flipCorner g c)) = q (Fin.ofNat 8 c)) (a b : Nat) :
    netSides (dualTriangles E q) a b = 0 := by
  rw [dualTriangles_net]
  have hother : ∀ f < 6, faceAxis f ≠ faceAxis g → faceSum f (dualMask q) (dmcSideNet E q a b) = 0 := by
    intro f hf hne
    unfold faceSum
    refine Finset.sum_eq_zero fun s hs => ?_
    rw [List.mem_toFinset] at hs
    split
    · rename_i hin
      obtain ⟨a1, a2, a3, -⟩ := sides_table (dualMask_lt q) hs
      obtain ⟨c1, c2⟩ := side_crosses (dualMask_lt q) hs
      have noCross : ∀ i < 12, edgeCorner i 1 = flipCorner g (edgeCorner i 0) → crosses (dualMask q) i = true → False := by
        intro i hi he hc
        have l := edgeCorner_lt8 i hi
        unfold crosses solid at hc
        rw [dualMask_bit _ l.1, dualMask_bit _ l.2, he, h _ l.1] at hc
        simp at hc
      rcases flat_table hf hg hne a1 a2 a3 hin.1 hin.2 with e | e | ⟨e1, e2⟩
      · exact (noCross _ a1 e c1).elim
      · exact (noCross _ a2 e c2).elim
      · have l := edgeCorner_lt8 s.1 a1
        have : dualVertexId E q s.2 = dualVertexId E q s.1 := by
          unfold dualVertexId slotCell
          rw [e1, e2, h _ l.1, h _ l.2]
        unfold dmcSideNet
        rw [this, ind_swap _ _ b a]
        ring
    · rfl
  have hopp := face_opposite E (q := q) (q' := q) hg (fun c hc _ => h c hc) a b
  have hsum : ∀ F : Nat → Int, (∀ f < 6, faceAxis f ≠ faceAxis g → F f = 0) → F g = - F (oppFace g) → ∑ f ∈ Finset.range 6, F f = 0 := by
    intro F h1 h2
    simp only [Finset.sum_range_succ, Finset.sum_range_zero]
    have hg6 : g = 0 ∨ g = 1 ∨ g = 2 ∨ g = 3 ∨ g = 4 ∨ g = 5 := by omega
    have H : ∀ f < 6, faceAxis f ≠ faceAxis g → F f = 0 := h1
    rcases hg6 with rfl | rfl | rfl | rfl | rfl | rfl <;>
      simp only [oppFace, Nat.reduceXor] at h2 <;>
      (try rw [H 0 (by omega) (by decide)]) <;> (try rw [H 1 (by omega) (by decide)]) <;> (try rw [H 2 (by omega) (by decide)]) <;>
      (try rw [H 3 (by omega) (by decide)]) <;> (try rw [H 4 (by omega) (by decide)]) <;> (try rw [H 5 (by omega) (by decide)]) <;>
      omega
  exact hsum _ hother hopp

end
end Isomesh
