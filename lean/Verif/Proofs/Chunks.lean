import Verif.Props.MarchingCubes
import Verif.Proofs.DmcClosed
import Verif.Spec.Chunks

/-! Marching cubes on the infinite lattice: sides over any finite set of cells; the sides of a chunk's mesh. -/

set_option linter.unusedSectionVars false

namespace Isomesh
open Spec

/-- Corner pattern of the cell `P` when the solid points of the lattice are given by `s`. -/
def latMask (s : IVec3 → Bool) (P : IVec3) : Nat :=
  maskOf (fun i => s (shift P (cornerPos i).x (cornerPos i).y (cornerPos i).z)) 8

theorem latMask_lt (s : IVec3 → Bool) (P : IVec3) : latMask s P < 256 := maskOf_lt _ 8

theorem solid_latMask (s : IVec3 → Bool) (P : IVec3) {i : Nat} (hi : i < 8) :
    solid (latMask s P) i = s (shift P (cornerPos i).x (cornerPos i).y (cornerPos i).z) := by
  unfold solid latMask
  rw [testBit_maskOf]
  simp [hi]

theorem latMask_across {s : IVec3 → Bool} {P : IVec3} {f : Nat} (hf : f < 6) :
    mirrorMask f (latMask s P) = latMask s (acrossFace P f) &&& faceMask (oppFace f) := by
  apply Nat.eq_of_testBit_eq
  intro c
  unfold mirrorMask faceMask
  rw [Nat.testBit_and, testBit_maskOf, testBit_maskOf]
  by_cases hc : c < 8
  · obtain ⟨h8, hp, ha, hs⟩ := flip_table f hf c hc
    have e1 := solid_latMask s P h8
    have e2 := solid_latMask s (acrossFace P f) hc
    unfold solid at e1 e2
    rw [e1, e2, ha, hs]
    by_cases hside : (cornerPos c).get (faceAxis f) = 1 - faceSide f
    · obtain ⟨hx, hy, hz⟩ := hp hside
      have : shift (acrossFace P f) (cornerPos c).x (cornerPos c).y (cornerPos c).z =
          shift P (cornerPos (flipCorner f c)).x (cornerPos (flipCorner f c)).y (cornerPos (flipCorner f c)).z := by
        unfold acrossFace shift
        simp only [IVec3.mk.injEq]
        omega
      rw [this]
      simp [hc, hside]
    · simp [hc, hside]
  · simp [hc]

theorem lat_across_sides {s : IVec3 → Bool} {P : IVec3} {f i j : Nat} (hf : f < 6)
    (hs : (i, j) ∈ sides (mcTriangles (latMask s P))) (hi : inFace f i = true) (hj : inFace f j = true) :
    (oppSlot f j, oppSlot f i) ∈ sides (mcTriangles (latMask s (acrossFace P f))) := by
  obtain ⟨l1, l2, -⟩ := sides_table (latMask_lt s P) hs
  obtain ⟨-, hi', -, -, -, -, -, hf', -⟩ := opp_table f hf i l1 hi
  obtain ⟨-, hj', -⟩ := opp_table f hf j l2 hj
  have h1 := sides_mirror (latMask_lt s P) hf hs hi hj
  rw [latMask_across hf] at h1
  exact sides_face (latMask_lt s _) hf' h1 hj' hi'

theorem lat_across_count {s : IVec3 → Bool} {P : IVec3} {f i j : Nat} (hf : f < 6) (l1 : i < 12) (l2 : j < 12)
    (hi : inFace f i = true) (hj : inFace f j = true) :
    (sides (mcTriangles (latMask s (acrossFace P f)))).count (oppSlot f j, oppSlot f i) =
      (sides (mcTriangles (latMask s P))).count (i, j) := by
  obtain ⟨k1, hi', ii, -, -, -, -, hf', -⟩ := opp_table f hf i l1 hi
  obtain ⟨k2, hj', jj, -⟩ := opp_table f hf j l2 hj
  by_cases hs : (i, j) ∈ sides (mcTriangles (latMask s P))
  · rw [(sides_table (latMask_lt s P) hs).2.2.2.1,
      (sides_table (latMask_lt s _) (lat_across_sides hf hs hi hj)).2.2.2.1]
  · rw [List.count_eq_zero_of_not_mem hs, List.count_eq_zero_of_not_mem]
    intro hs'
    have := lat_across_sides (P := acrossFace P f) hf' hs' hj' hi'
    rw [acrossFace_acrossFace P hf, ii, jj] at this
    exact hs this

/-- Sides of the triangles of the cell `P`, by lattice edges. -/
def latSides (s : IVec3 → Bool) (P : IVec3) : List (LEdge × LEdge) :=
  (sides (mcTriangles (latMask s P))).map fun t => (slotEdge P t.1, slotEdge P t.2)

theorem latSides_count {s : IVec3 → Bool} {P : IVec3} {i j : Nat} (hi : i < 12) (hj : j < 12) :
    (latSides s P).count (slotEdge P i, slotEdge P j) = (sides (mcTriangles (latMask s P))).count (i, j) := by
  unfold latSides List.count
  rw [List.countP_map]
  apply List.countP_congr
  rintro ⟨i', j'⟩ hs
  obtain ⟨l1, l2, -⟩ := sides_table (latMask_lt s P) hs
  simp only [Function.comp, beq_iff_eq, Prod.mk.injEq]
  constructor
  · rintro ⟨e1, e2⟩; exact ⟨slotEdge_inj l1 hi e1, slotEdge_inj l2 hj e2⟩
  · rintro ⟨rfl, rfl⟩; exact ⟨rfl, rfl⟩

theorem latSides_slots {s : IVec3 → Bool} {P : IVec3} {E F : LEdge} (h : (E, F) ∈ latSides s P) :
    ∃ i < 12, ∃ j < 12, i ≠ j ∧ (i, j) ∈ sides (mcTriangles (latMask s P)) ∧ slotEdge P i = E ∧ slotEdge P j = F := by
  obtain ⟨⟨i, j⟩, hs, e⟩ := List.mem_map.1 h
  obtain ⟨l1, l2, hne, -⟩ := sides_table (latMask_lt s P) hs
  simp only [Prod.mk.injEq] at e
  exact ⟨i, l1, j, l2, hne, hs, e.1, e.2⟩

/-- Over any finite set of cells, sides are matched, except those on a face behind which there is a cell that has triangles but
is not in the set. -/
theorem lat_closed (s : IVec3 → Bool) {cs : List IVec3} (hnd : cs.Nodup) (E F : LEdge) :
    (cs.flatMap (latSides s)).count (E, F) ≤ 1 ∧
    ((cs.flatMap (latSides s)).count (E, F) = (cs.flatMap (latSides s)).count (F, E) ∨
      ∃ P ∈ cs, ∃ f < 6, acrossFace P f ∉ cs ∧ latSides s (acrossFace P f) ≠ [] ∧ ∃ i < 12, ∃ j < 12,
        inFace f i = true ∧ inFace f j = true ∧ slotEdge P i = E ∧ slotEdge P j = F ∧
        Spec.crosses (latMask s P) i = true) := by
  have hcount : ∀ E F, (cs.flatMap (latSides s)).count (E, F) = (cs.map fun P => (latSides s P).count (E, F)).sum := by
    intro E F
    rw [List.count_flatMap]
    rfl
  rw [hcount, hcount]
  by_cases hex : ∃ P ∈ cs, ∃ i < 12, ∃ j < 12, i ≠ j ∧ slotEdge P i = E ∧ slotEdge P j = F ∧
      ((i, j) ∈ sides (mcTriangles (latMask s P)) ∨ (j, i) ∈ sides (mcTriangles (latMask s P)))
  · obtain ⟨P, hP, i, hi, j, hj, hij, rfl, rfl, hside⟩ := hex
    have hsupp : ∀ Q, ((latSides s Q).count (slotEdge P i, slotEdge P j) ≠ 0 ∨
        (latSides s Q).count (slotEdge P j, slotEdge P i) ≠ 0) →
        Q = P ∨ ∃ f < 6, inFace f i = true ∧ inFace f j = true ∧ Q = acrossFace P f := by
      intro Q hne
      have : ∃ i' < 12, ∃ j' < 12, slotEdge Q i' = slotEdge P i ∧ slotEdge Q j' = slotEdge P j := by
        rcases hne with hne | hne
        · obtain ⟨i', hi', j', hj', -, -, h1, h2⟩ := latSides_slots (List.count_pos_iff.1 (Nat.pos_of_ne_zero hne))
          exact ⟨i', hi', j', hj', h1, h2⟩
        · obtain ⟨i', hi', j', hj', -, -, h1, h2⟩ := latSides_slots (List.count_pos_iff.1 (Nat.pos_of_ne_zero hne))
          exact ⟨j', hj', i', hi', h2, h1⟩
      obtain ⟨i', hi', j', hj', h1, h2⟩ := this
      exact same_edges hi hj hi' hj' hij h1.symm h2.symm
    have cab := latSides_count (s := s) (P := P) hi hj
    have cba := latSides_count (s := s) (P := P) hj hi
    have hsym : coface j i = coface i j := by
      unfold coface; congr 1; funext f; rw [Bool.and_comm]
    have htab : (sides (mcTriangles (latMask s P))).count (i, j) ≤ 1 ∧
        (sides (mcTriangles (latMask s P))).count (j, i) ≤ 1 ∧
        (coface i j = true → (sides (mcTriangles (latMask s P))).count (i, j) +
          (sides (mcTriangles (latMask s P))).count (j, i) = 1) ∧
        (coface i j = false → (sides (mcTriangles (latMask s P))).count (i, j) =
          (sides (mcTriangles (latMask s P))).count (j, i)) := by
      rcases hside with h1 | h1
      · obtain ⟨-, -, -, t1, t2⟩ := sides_table (latMask_lt s P) h1
        simp only at t1 t2
        cases hcf : coface i j <;> simp only [hcf] at t2 <;> simp [t1, t2]
      · obtain ⟨-, -, -, t1, t2⟩ := sides_table (latMask_lt s P) h1
        simp only [hsym] at t1 t2
        cases hcf : coface i j <;> simp only [hcf] at t2 <;> simp [t1, t2]
    obtain ⟨t1, t2, t3, t4⟩ := htab
    by_cases hcf : coface i j = true
    · have hcf' := hcf
      unfold coface at hcf'
      obtain ⟨f, hf, hff⟩ := List.any_eq_true.1 hcf'
      rw [List.mem_range] at hf
      obtain ⟨fi, fj⟩ := Bool.and_eq_true_iff.1 hff
      obtain ⟨k1, -⟩ := opp_table f hf i hi fi
      obtain ⟨k2, -⟩ := opp_table f hf j hj fj
      have hsum : ∀ X Y, ((X = slotEdge P i ∧ Y = slotEdge P j) ∨ (X = slotEdge P j ∧ Y = slotEdge P i)) →
          (cs.map fun P => (latSides s P).count (X, Y)).sum =
          (latSides s P).count (X, Y) + (if acrossFace P f ∈ cs then (latSides s (acrossFace P f)).count (X, Y) else 0) := by
        intro X Y hXY
        rw [sum_two cs hnd _ P (acrossFace P f) (acrossFace_ne P f).symm]
        · rw [if_pos hP]
        · intro Q hQ n1 n2
          by_contra hne
          rcases hsupp Q (by
            rcases hXY with ⟨rfl, rfl⟩ | ⟨rfl, rfl⟩
            · exact Or.inl hne
            · exact Or.inr hne) with e | ⟨f', hf', fi', fj', e⟩
          · exact n1 e
          · rw [coface_unique f hf f' hf' i hi j hj hij fi fj fi' fj'] at n2
            exact n2 e
      rw [hsum _ _ (Or.inl ⟨rfl, rfl⟩), hsum _ _ (Or.inr ⟨rfl, rfl⟩), cab, cba]
      by_cases hQ : acrossFace P f ∈ cs
      · rw [if_pos hQ, if_pos hQ]
        have e1 := latSides_count (s := s) (P := acrossFace P f) k1 k2
        have e2 := latSides_count (s := s) (P := acrossFace P f) k2 k1
        rw [slotEdge_across hf hi fi, slotEdge_across hf hj fj] at e1 e2
        rw [e1, e2, lat_across_count hf hj hi fj fi, lat_across_count hf hi hj fi fj]
        have := t3 hcf
        exact ⟨by omega, Or.inl (by omega)⟩
      · rw [if_neg hQ, if_neg hQ]
        refine ⟨by omega, Or.inr ⟨P, hP, f, hf, hQ, ?_, i, hi, j, hj, fi, fj, rfl, rfl, ?_⟩⟩
        · intro hnil
          have hne : ∃ t, t ∈ sides (mcTriangles (latMask s (acrossFace P f))) := by
            rcases hside with h1 | h1
            · exact ⟨_, lat_across_sides hf h1 fi fj⟩
            · exact ⟨_, lat_across_sides hf h1 fj fi⟩
          obtain ⟨t, ht⟩ := hne
          have := List.mem_map_of_mem (f := fun t : Nat × Nat => (slotEdge (acrossFace P f) t.1, slotEdge (acrossFace P f) t.2)) ht
          unfold latSides at hnil
          rw [hnil] at this
          cases this
        · rcases hside with h1 | h1
          · exact (side_crosses (latMask_lt s P) h1).1
          · exact (side_crosses (latMask_lt s P) h1).2
    · have hcf' : coface i j = false := by simpa using hcf
      have hsum : ∀ X Y, ((X = slotEdge P i ∧ Y = slotEdge P j) ∨ (X = slotEdge P j ∧ Y = slotEdge P i)) →
          (cs.map fun P => (latSides s P).count (X, Y)).sum = (latSides s P).count (X, Y) := by
        intro X Y hXY
        have hfar : acrossFace P 0 ≠ P := acrossFace_ne P 0
        have hz : ∀ Q ∈ cs, Q ≠ P → (latSides s Q).count (X, Y) = 0 := by
          intro Q hQ n1
          by_contra hne
          rcases hsupp Q (by
            rcases hXY with ⟨rfl, rfl⟩ | ⟨rfl, rfl⟩
            · exact Or.inl hne
            · exact Or.inr hne) with e | ⟨f', hf', fi', fj', e⟩
          · exact n1 e
          · apply hcf
            unfold coface
            exact List.any_eq_true.2 ⟨f', List.mem_range.2 hf', by rw [fi', fj']; rfl⟩
        rw [sum_two cs hnd _ P (acrossFace P 0) hfar.symm (fun Q hQ n1 _ => hz Q hQ n1), if_pos hP]
        by_cases hm : acrossFace P 0 ∈ cs
        · rw [if_pos hm, hz _ hm hfar]; rfl
        · rw [if_neg hm]; rfl
      rw [hsum _ _ (Or.inl ⟨rfl, rfl⟩), hsum _ _ (Or.inr ⟨rfl, rfl⟩), cab, cba]
      exact ⟨t1, Or.inl (t4 hcf')⟩
  · have hz : ∀ Q ∈ cs, (latSides s Q).count (E, F) = 0 ∧ (latSides s Q).count (F, E) = 0 := by
      intro Q hQ
      constructor
      · by_contra hne
        obtain ⟨i', hi', j', hj', hn, hs, h1, h2⟩ := latSides_slots (List.count_pos_iff.1 (Nat.pos_of_ne_zero hne))
        exact hex ⟨Q, hQ, i', hi', j', hj', hn, h1, h2, Or.inl hs⟩
      · by_contra hne
        obtain ⟨i', hi', j', hj', hn, hs, h1, h2⟩ := latSides_slots (List.count_pos_iff.1 (Nat.pos_of_ne_zero hne))
        exact hex ⟨Q, hQ, j', hj', i', hi', hn.symm, h2, h1, Or.inr hs⟩
    have e1 : (cs.map fun P => (latSides s P).count (E, F)).sum = 0 := by
      apply sum_zero; intro x hx
      obtain ⟨Q, hQ, rfl⟩ := List.mem_map.1 hx
      exact (hz Q hQ).1
    have e2 : (cs.map fun P => (latSides s P).count (F, E)).sum = 0 := by
      apply sum_zero; intro x hx
      obtain ⟨Q, hQ, rfl⟩ := List.mem_map.1 hx
      exact (hz Q hQ).2
    rw [e1, e2]
    exact ⟨by omega, Or.inl rfl⟩

end Isomesh
