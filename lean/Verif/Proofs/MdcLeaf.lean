import Verif.Proofs.MdcHeap
import Verif.Proofs.DcTotal
import Verif.Props.Tables

/-! Leaves built by `MDC_Octree::buildLeaf`. -/

namespace Isomesh
open Spec

set_option linter.unusedSectionVars false
variable {K : Type} [Add K] [_root_.Sub K] [Mul K] [Div K] [Neg K] [Zero K] [One K] [OfNat K 2] [OfScientific K] [NatCast K] [IntCast K]
  [Fabs K] [Elem K] [LinearOrder K] [RoundedLaws K]

variable {env : DcEnv K}

/-! ### Tables -/

/-- Slot of an edge number. -/
def mdcSlot (i : Fin 12) : Axis × Fin 4 :=
  (match (i : Nat) / 4 with | 0 => .X | 1 => .Y | _ => .Z, ⟨(i : Nat) % 4, Nat.mod_lt _ (by decide)⟩)

theorem mdcSlot_spec (i : Fin 12) : cellEdgeAxis i = (mdcSlot i).1 ∧ cellEdgeEnd i 0 = (dcEdgeEnds (mdcSlot i).1 (mdcSlot i).2).1 ∧
    cellEdgeEnd i 1 = (dcEdgeEnds (mdcSlot i).1 (mdcSlot i).2).2 := by revert i; decide +kernel

theorem mdcSlot_surj (x : Axis × Fin 4) : ∃ i, mdcSlot i = x := by
  obtain ⟨D, j⟩ := x
  revert j
  cases D <;> decide +kernel

theorem mdcSlot_inj : ∀ i j, mdcSlot i = mdcSlot j → i = j := by decide +kernel

theorem cellEdgeEnd_val (i : Fin 12) (k : Nat) (hk : k < 2) : ((cellEdgeEnd i k : Fin 8) : Nat) = edgeCorner i k := by
  have : ∀ i : Fin 12, ∀ k < 2, ((cellEdgeEnd i k : Fin 8) : Nat) = edgeCorner i k := by decide +kernel
  exact this i k hk

/-- Lesser endpoint of edge number `i` of the cell. -/
def mdcPos (lo : IVec3) (i : Fin 12) : IVec3 := octCorner lo 1 (cellEdgeEnd i 0)

theorem mdcPos_slot (lo : IVec3) (i : Fin 12) : mdcPos lo i = dcSlotPos lo (mdcSlot i) := by
  unfold mdcPos dcSlotPos
  rw [(mdcSlot_spec i).2.1]

theorem mdcPos_end (lo : IVec3) (i : Fin 12) : edgeEnd (cellEdgeAxis i) (mdcPos lo i) = octCorner lo 1 (cellEdgeEnd i 1) := by
  rw [mdcPos_slot, (mdcSlot_spec i).1, (mdcSlot_spec i).2.2]
  exact slot_end lo _

theorem mdc_edge_iff {lo : IVec3} {D : Axis} {p : IVec3} : EdgeOfCell lo D p ↔ ∃ i, cellEdgeAxis i = D ∧ p = mdcPos lo i := by
  rw [slot_iff]
  constructor
  · rintro ⟨j, rfl⟩
    obtain ⟨i, hi⟩ := mdcSlot_surj (D, j)
    refine ⟨i, by rw [(mdcSlot_spec i).1, hi], by rw [mdcPos_slot, hi]⟩
  · rintro ⟨i, rfl, rfl⟩
    refine ⟨(mdcSlot i).2, ?_⟩
    rw [mdcPos_slot, (mdcSlot_spec i).1]

theorem mdcPos_inj {lo : IVec3} {i j : Fin 12} (h1 : cellEdgeAxis i = cellEdgeAxis j) (h : mdcPos lo i = mdcPos lo j) : i = j := by
  apply mdcSlot_inj
  refine dcSlotPos_inj (lo := lo) ?_ ?_
  · rw [← (mdcSlot_spec i).1, ← (mdcSlot_spec j).1]; exact h1
  · rw [← mdcPos_slot, ← mdcPos_slot]; exact h

theorem mdcSetIndex_eq {m : Nat} (hm : m < 256) (i : Fin 12) : mdcSetIndex m i = some (mdcSet m i) := by
  have h1 := C27_edge_sets.1
  have h2 := (C27_edge_sets.2 m hm).1
  have hl : m < kMdcEdgeSetIndex.length := by rw [h1]; exact hm
  unfold mdcSetIndex mdcSet
  rw [List.getD_eq_getElem _ _ hl] at h2 ⊢
  rw [List.getElem?_eq_getElem hl, Option.bind_some, List.getElem?_eq_getElem (by rw [h2]; exact i.2), List.getD_eq_getElem _ _ (by rw [h2]; exact i.2)]

theorem mdcMask_eq (corners : Fin 8 → Material) : mdcMask corners = Nat.ofBits fun i : Fin 8 => decide (corners i ≠ .Empty) := by
  have key : ∀ b : Fin 8 → Bool, (List.finRange 8).foldl (fun mask i => if b i = true then mask ||| 1 <<< (i : Nat) else mask) 0 =
      Nat.ofBits b := by
    intro b
    have hb : b = ![b 0, b 1, b 2, b 3, b 4, b 5, b 6, b 7] := by
      funext i; fin_cases i <;> rfl
    rw [hb]
    generalize b 0 = b0; generalize b 1 = b1; generalize b 2 = b2; generalize b 3 = b3
    generalize b 4 = b4; generalize b 5 = b5; generalize b 6 = b6; generalize b 7 = b7
    revert b0 b1 b2 b3 b4 b5 b6 b7
    decide +kernel
  unfold mdcMask
  rw [← key]
  congr 1
  funext m i
  simp only [decide_eq_true_eq]

theorem mdcMask_lt (corners : Fin 8 → Material) : mdcMask corners < 256 := by rw [mdcMask_eq]; exact Nat.ofBits_lt_two_pow _

theorem mdcMask_solid (corners : Fin 8 → Material) (i : Fin 8) : Spec.solid (mdcMask corners) i = decide (corners i ≠ .Empty) := by
  rw [mdcMask_eq]; exact Nat.testBit_ofBits_lt _ _ i.2

theorem mask_crosses (corners : Fin 8 → Material) (i : Fin 12) : Spec.crosses (mdcMask corners) i = true ↔
    decide (corners (cellEdgeEnd i 0) ≠ .Empty) ≠ decide (corners (cellEdgeEnd i 1) ≠ .Empty) := by
  unfold Spec.crosses
  rw [← cellEdgeEnd_val i 0 (by decide), ← cellEdgeEnd_val i 1 (by decide), mdcMask_solid, mdcMask_solid]
  simp

/-- The solid corner of a crossing edge, by number. -/
def solidNo (m i : Nat) : Nat := if Spec.solid m (edgeCorner i 0) then edgeCorner i 0 else edgeCorner i 1

theorem solid_corner_setB : ((List.range 256).all fun m => (List.range 12).all fun i => (List.range 12).all fun j =>
    !Spec.crosses m i || !Spec.crosses m j || !(solidNo m i == solidNo m j) || (mdcSet m i == mdcSet m j)) = true := by
  decide +kernel

/-- All crossing edges at one solid corner are in one set. -/
theorem solid_corner_set {m : Nat} (hm : m < 256) {i : Nat} (hi : i < 12) {j : Nat} (hj : j < 12) (h1 : Spec.crosses m i = true)
    (h2 : Spec.crosses m j = true) (h3 : solidNo m i = solidNo m j) : mdcSet m i = mdcSet m j := by
  have h := solid_corner_setB
  simp only [List.all_eq_true, List.mem_range] at h
  have := h m hm i hi j hj
  simpa [h1, h2, h3] using this

/-- The solid corner of a crossing edge. -/
def solidEnd (corners : Fin 8 → Material) (i : Fin 12) : Fin 8 := if corners (cellEdgeEnd i 0) ≠ .Empty then cellEdgeEnd i 0 else cellEdgeEnd i 1

theorem solidEnd_set {corners : Fin 8 → Material} {i j : Fin 12} (hi : 0 ≤ mdcSet (mdcMask corners) i)
    (hj : 0 ≤ mdcSet (mdcMask corners) j) (h : solidEnd corners i = solidEnd corners j) :
    mdcSet (mdcMask corners) i = mdcSet (mdcMask corners) j := by
  have hm := mdcMask_lt corners
  have h27 := (C27_edge_sets.2 _ hm).2.1
  refine solid_corner_set hm i.2 j.2 ((h27 i i.2).1.1 hi) ((h27 j j.2).1.1 hj) ?_
  have key : ∀ i : Fin 12, solidNo (mdcMask corners) i =
      ((solidEnd corners i : Fin 8) : Nat) := by
    intro i
    unfold solidEnd solidNo
    rw [← cellEdgeEnd_val i 0 (by decide), ← cellEdgeEnd_val i 1 (by decide), mdcMask_solid]
    by_cases h : corners (cellEdgeEnd i 0) ≠ .Empty
    · rw [if_pos h, if_pos (by simpa using h)]
    · rw [if_neg h, if_neg (by simpa using h)]
  rw [key, key, h]

/-! ### The loop over the edges -/

section
variable {g : Grid K} {lo : IVec3} {corners : Fin 8 → Material}

theorem set_crossing (hin : CellIn g.maxCoord lo) (hc : ∀ i, g.at (octCorner lo 1 i) = some (corners i)) (i : Fin 12) :
    0 ≤ mdcSet (mdcMask corners) i ↔ CrossingEdge g (cellEdgeAxis i) (mdcPos lo i) := by
  rw [((C27_edge_sets.2 _ (mdcMask_lt corners)).2.1 i i.2).1, mask_crosses]
  unfold CrossingEdge
  rw [mdcPos_end]
  unfold mdcPos
  rw [solid_of (hc _), solid_of (hc _)]
  constructor
  · intro h
    refine ⟨?_, h⟩
    have := slot_inCube hin (mdcSlot i)
    rw [← mdcPos_slot, ← (mdcSlot_spec i).1] at this
    exact this
  · exact fun h => h.2

/-- The stored edges of the list of edge numbers that are in set `k`. -/
def InSet (g : Grid K) (lo : IVec3) (corners : Fin 8 → Material) (is : List (Fin 12)) (k : Nat) (e : GridEdge K) : Prop :=
  e ∈ edgeList g ∧ ∃ i ∈ is, e.axis = cellEdgeAxis i ∧ e.lesser = mdcPos lo i ∧ mdcSet (mdcMask corners) i = k

/-- Result of the loop over the edges `is`. -/
structure LoopOK (env : DcEnv K) (g : Grid K) (lo : IVec3) (corners : Fin 8 → Material) (is : List (Fin 12)) (s s' : MdcLeafState K)
    (es : Fin 4 → List (GridEdge K)) (cs : Fin 4 → List (Fin 8)) : Prop where
  ops : ∀ k, runOps qef3Rows 30 env.tiny (s.q k) ((es k).map (planeOp env.eps)) = some (s'.q k)
  rows : ∀ k, (s'.q k).usedRows ≤ qef3Rows
  points : ∀ k, (s'.q k).pointsCount = (s.q k).pointsCount + (es k).length
  options : ∀ k, SameOptions (s.q k) (s'.q k)
  len : ∀ k, (es k).length ≤ is.length
  nodup : ∀ k, (es k).Nodup
  mem : ∀ k e, e ∈ es k ↔ InSet g lo corners is (k : Nat) e
  filter : ∀ k, s'.filter k = ((cs k).map corners).foldl FilterFast.add (s.filter k)
  cnodup : ∀ k, (cs k).Nodup
  cmem : ∀ k c, c ∈ cs k ↔ s.used c = false ∧ ∃ i ∈ is, mdcSet (mdcMask corners) i = (k : Nat) ∧ solidEnd corners i = c
  used : ∀ c, s'.used c = true ↔ s.used c = true ∨ ∃ i ∈ is, 0 ≤ mdcSet (mdcMask corners) i ∧ solidEnd corners i = c
  avg : ∀ k, s'.avg k = ((es k).map fun e => edgeNormal env.eps e.gradient).foldl Vec3.add (s.avg k)
  cnt_le : s.cnt ≤ s'.cnt
  cnt_lt : ∀ i ∈ is, mdcSet (mdcMask corners) i < s'.cnt
  cnt_hit : s'.cnt = s.cnt ∨ ∃ i ∈ is, mdcSet (mdcMask corners) i + 1 = s'.cnt

theorem mdcLeafEdge_eq (h : Filled g) (hin : CellIn g.maxCoord lo) (hc : ∀ i, g.at (octCorner lo 1 i) = some (corners i))
    (i : Fin 12) (s : MdcLeafState K) (hr : ∀ k, (s.q k).usedRows ≤ qef3Rows) (hn : ∀ k, (s.q k).pointsCount < 4294967295) :
    ∃ s' es cs, mdcLeafEdge env g lo (mdcMask corners) s i = some s' ∧ LoopOK env g lo corners [i] s s' es cs := by
  have hm := mdcMask_lt corners
  have h27 := (C27_edge_sets.2 _ hm).2.1 i i.2
  unfold mdcLeafEdge
  simp only [mdcSetIndex_eq hm, Option.bind_eq_bind, Option.bind_some]
  by_cases hneg : mdcSet (mdcMask corners) i < 0
  · rw [if_pos hneg]
    refine ⟨s, fun _ => [], fun _ => [], rfl, ?_⟩
    have hno : ∀ k : Fin 4, mdcSet (mdcMask corners) i ≠ ((k : Nat) : Int) := fun k e => by omega
    refine ⟨fun _ => rfl, hr, fun _ => by simp, fun _ => sameOptions_refl _, by simp, by simp, ?_, fun _ => rfl, by simp, ?_, ?_,
      fun _ => rfl, le_refl _, ?_, Or.inl rfl⟩
    · intro k e
      simp only [List.not_mem_nil, InSet, List.mem_singleton, exists_eq_left, false_iff]
      rintro ⟨-, -, -, h⟩; exact hno k h
    · intro k c
      simp only [List.not_mem_nil, List.mem_singleton, exists_eq_left, false_iff]
      rintro ⟨-, h, -⟩; exact hno k h
    · intro c
      simp only [List.mem_singleton, exists_eq_left]
      constructor
      · exact Or.inl
      · rintro (h | h)
        · exact h
        · omega
    · intro j hj
      rw [List.mem_singleton.1 hj]; omega
  · rw [if_neg hneg]
    have hlt : (mdcSet (mdcMask corners) i).toNat < 4 := by omega
    rw [dif_pos hlt]
    have hcr : CrossingEdge g (cellEdgeAxis i) (mdcPos lo i) := (set_crossing hin hc i).1 (by omega)
    obtain ⟨it, e, hf, he, hl⟩ := filled_findEdge h hcr
    have hem : e ∈ g.edges (cellEdgeAxis i) := List.mem_of_getElem? he
    have hax := h.edge_axis _ e hem
    set k0 : Fin 4 := ⟨(mdcSet (mdcMask corners) i).toNat, hlt⟩ with hk0
    have hk0v : ((k0 : Nat) : Int) = mdcSet (mdcMask corners) i := by simp only [hk0]; omega
    obtain ⟨q', a1, a2, a3, a4⟩ := addPlane_some (tiny := env.tiny) (by simp [qef3Rows] : 3 + 1 < qef3Rows) (hr k0)
      e.surfacePoint.toVecN (edgeNormal env.eps e.gradient).toVecN
    have hf' : findEdge (g.edges (cellEdgeAxis i)) (lo.x + (cornerOff (cellEdgeEnd i 0)).x) (lo.y + (cornerOff (cellEdgeEnd i 0)).y)
        (lo.z + (cornerOff (cellEdgeEnd i 0)).z) = some it := by
      rw [← hf, cornerOff_eq]; simp only [mdcPos, octCorner, one_mul]
    -- the solid corner
    have hsol : e.lesserSolid = decide (corners (cellEdgeEnd i 0) ≠ .Empty) := by
      rw [h.edge_solid _ e hem, hl]; unfold mdcPos; exact solid_of (hc _)
    have hcorner : (if e.lesserSolid = true then cellEdgeEnd i 0 else cellEdgeEnd i 1) = solidEnd corners i := by
      unfold solidEnd
      rw [hsol]
      by_cases hh : corners (cellEdgeEnd i 0) ≠ .Empty
      · rw [if_pos (by simpa using hh), if_pos hh]
      · rw [if_neg (by simpa using hh), if_neg hh]
    have hmat : e.material = corners (solidEnd corners i) := by
      have := h.edge_mat _ e hem
      rw [hl, mdcPos_end] at this
      unfold mdcPos at this
      rw [← apply_ite (octCorner lo 1), hcorner, hc] at this
      exact (Option.some.inj this).symm
    simp only [hf', he, a1, Option.bind_some, hcorner]
    refine ⟨_, fun k => if k = k0 then [e] else [], fun k => if k = k0 ∧ s.used (solidEnd corners i) = false then [solidEnd corners i] else [],
      rfl, ?_⟩
    · have upd : ∀ {β : Fin 4 → Type} (f : ∀ k, β k) (x : β k0), Function.update f k0 x k0 = x := fun f x => Function.update_self ..
      refine ⟨?_, ?_, ?_, ?_, ?_, ?_, ?_, ?_, ?_, ?_, ?_, ?_, ?_, ?_, ?_⟩
      · intro k
        dsimp only
        by_cases hk : k = k0
        · subst hk
          rw [if_pos rfl, Function.update_self]
          simp only [List.map_cons, List.map_nil, runOps, List.foldlM_cons, List.foldlM_nil, planeOp, QefOp.apply, a1,
            Option.bind_eq_bind, Option.bind_some]
          rfl
        · rw [if_neg hk, Function.update_of_ne hk]; rfl
      · intro k
        dsimp only
        by_cases hk : k = k0
        · subst hk; rw [Function.update_self]; exact a2
        · rw [Function.update_of_ne hk]; exact hr k
      · intro k
        dsimp only
        by_cases hk : k = k0
        · subst hk
          rw [if_pos rfl, Function.update_self, a3, u32, Nat.mod_eq_of_lt (by have := hn k0; omega)]; rfl
        · rw [if_neg hk, Function.update_of_ne hk]; rfl
      · intro k
        dsimp only
        by_cases hk : k = k0
        · subst hk; rw [Function.update_self]; exact a4
        · rw [Function.update_of_ne hk]; exact sameOptions_refl _
      · intro k; split <;> simp
      · intro k; split <;> simp
      · intro k e'
        unfold InSet
        simp only [List.mem_singleton, exists_eq_left]
        by_cases hk : k = k0
        · subst hk
          rw [if_pos rfl, List.mem_singleton]
          constructor
          · rintro rfl
            exact ⟨(mem_edgeList h).2 (by rw [hax]; exact hem), hax, hl, hk0v.symm⟩
          · rintro ⟨b1, b2, b3, -⟩
            rw [mem_edgeList h, b2] at b1
            exact filled_edge_unique h b1 hem (b3.trans hl.symm)
        · rw [if_neg hk]
          simp only [List.not_mem_nil, false_iff]
          rintro ⟨-, -, -, b⟩
          apply hk
          rw [← hk0v] at b
          exact Fin.ext (by omega)
      · intro k
        dsimp only
        cases hu : s.used (solidEnd corners i)
        · simp only [Bool.not_false, if_true, and_true]
          by_cases hk : k = k0
          · subst hk; rw [Function.update_self, if_pos rfl, hmat]; rfl
          · rw [Function.update_of_ne hk, if_neg hk]; rfl
        · simp
      · intro k; split <;> simp
      · intro k c
        simp only [List.mem_singleton, exists_eq_left]
        constructor
        · intro hmem
          split at hmem
          · rename_i hh
            rw [List.mem_singleton] at hmem
            subst hmem
            exact ⟨hh.2, by rw [hh.1]; exact hk0v.symm, rfl⟩
          · cases hmem
        · rintro ⟨b1, b2, rfl⟩
          rw [if_pos ⟨Fin.ext (by rw [← hk0v] at b2; omega), b1⟩, List.mem_singleton]
      · intro c
        simp only [List.mem_singleton, exists_eq_left]
        by_cases hcc : c = solidEnd corners i
        · subst hcc
          rw [Function.update_self]
          simp only [true_iff]
          exact Or.inr ⟨by omega, trivial⟩
        · rw [Function.update_of_ne hcc]
          constructor
          · exact Or.inl
          · rintro (h | ⟨-, h⟩)
            · exact h
            · exact absurd h.symm hcc
      · intro k
        dsimp only
        by_cases hk : k = k0
        · subst hk; rw [if_pos rfl, Function.update_self]; rfl
        · rw [if_neg hk, Function.update_of_ne hk]; rfl
      · dsimp only; omega
      · intro j hj
        rw [List.mem_singleton.1 hj]
        dsimp only
        omega
      · dsimp only
        by_cases hmx : (mdcSet (mdcMask corners) i).toNat + 1 ≤ s.cnt
        · left; omega
        · right; exact ⟨i, by simp, by omega⟩

theorem mdcLeafLoop_eq (h : Filled g) (hin : CellIn g.maxCoord lo) (hc : ∀ i, g.at (octCorner lo 1 i) = some (corners i))
    (is : List (Fin 12)) (hnd : is.Nodup) (s : MdcLeafState K) (hr : ∀ k, (s.q k).usedRows ≤ qef3Rows)
    (hn : ∀ k, (s.q k).pointsCount + is.length < 4294967295) :
    ∃ s' es cs, is.foldlM (mdcLeafEdge env g lo (mdcMask corners)) s = some s' ∧ LoopOK env g lo corners is s s' es cs := by
  induction is generalizing s with
  | nil =>
    refine ⟨s, fun _ => [], fun _ => [], rfl, ?_⟩
    refine ⟨fun _ => rfl, hr, fun _ => by simp, fun _ => sameOptions_refl _, by simp, by simp, ?_, fun _ => rfl, by simp, ?_, ?_,
      fun _ => rfl, le_refl _, ?_, Or.inl rfl⟩ <;> simp [InSet]
  | cons i is ih =>
    obtain ⟨hi, hnd⟩ := List.nodup_cons.1 hnd
    simp only [List.length_cons] at hn
    obtain ⟨s1, es1, cs1, a, A⟩ := mdcLeafEdge_eq (env := env) h hin hc i s hr (fun k => by have := hn k; omega)
    obtain ⟨s2, es2, cs2, b, B⟩ := ih hnd s1 A.rows (fun k => by
      have := hn k; have := A.points k; have := A.len k; simp only [List.length_singleton] at this; omega)
    refine ⟨s2, fun k => es1 k ++ es2 k, fun k => cs1 k ++ cs2 k, ?_, ?_⟩
    · simp only [List.foldlM_cons, a, Option.bind_eq_bind, Option.bind_some]; exact b
    have hsplit : ∀ P : Fin 12 → Prop, (∃ j ∈ i :: is, P j) ↔ (∃ j ∈ [i], P j) ∨ ∃ j ∈ is, P j := by
      intro P; simp
    refine ⟨?_, B.rows, ?_, fun k => sameOptions_trans (A.options k) (B.options k), ?_, ?_, ?_, ?_, ?_, ?_, ?_, ?_, A.cnt_le.trans B.cnt_le, ?_, ?_⟩
    · intro k
      have hA := A.ops k
      have hB := B.ops k
      unfold runOps at hA hB ⊢
      rw [List.map_append, List.foldlM_append, hA]
      exact hB
    · intro k; rw [B.points, A.points, List.length_append]; omega
    · intro k
      have := A.len k; have := B.len k
      simp only [List.length_append, List.length_cons, List.length_nil] at *; omega
    · intro k
      refine List.nodup_append.2 ⟨A.nodup k, B.nodup k, ?_⟩
      rintro e h1 e' h2 rfl
      obtain ⟨-, j, hj, c1, c2, -⟩ := (A.mem k e).1 h1
      obtain ⟨-, j', hj', d1, d2, -⟩ := (B.mem k e).1 h2
      rw [List.mem_singleton.1 hj] at c1 c2
      have := mdcPos_inj (c1.symm.trans d1) (c2.symm.trans d2)
      subst this
      exact hi hj'
    · intro k e
      rw [List.mem_append, A.mem, B.mem]
      unfold InSet
      rw [hsplit]
      exact and_or_left.symm
    · intro k
      rw [List.map_append, List.foldl_append, ← A.filter, B.filter]
    · intro k
      refine List.nodup_append.2 ⟨A.cnodup k, B.cnodup k, ?_⟩
      rintro c h1 c' h2 rfl
      obtain ⟨-, j, hj, e1, e2⟩ := (A.cmem k c).1 h1
      obtain ⟨f1, -⟩ := (B.cmem k c).1 h2
      have := (A.used c).2 (Or.inr ⟨j, hj, by omega, e2⟩)
      rw [f1] at this; cases this
    · intro k c
      rw [List.mem_append, A.cmem, B.cmem, hsplit]
      constructor
      · rintro (⟨h1, h2⟩ | ⟨h1, h2⟩)
        · exact ⟨h1, Or.inl h2⟩
        · refine ⟨?_, Or.inr h2⟩
          cases hs : s.used c
          · rfl
          · rw [(A.used c).2 (Or.inl hs)] at h1; cases h1
      · rintro ⟨h1, h2⟩
        by_cases h3 : s1.used c = true
        · rcases (A.used c).1 h3 with h4 | ⟨j, hj, e1, e2⟩
          · rw [h1] at h4; cases h4
          · left
            refine ⟨h1, ?_⟩
            rcases h2 with h2 | ⟨j', -, f1, f2⟩
            · exact h2
            · refine ⟨j, hj, ?_, e2⟩
              rw [← f1]
              exact solidEnd_set e1 (by omega) (e2.trans f2.symm)
        · rcases h2 with h2 | h2
          · exact Or.inl ⟨h1, h2⟩
          · exact Or.inr ⟨by simpa using h3, h2⟩
    · intro c
      rw [B.used, A.used, hsplit]
      exact or_assoc
    · intro k
      rw [List.map_append, List.foldl_append, ← A.avg, B.avg]
    · intro j hj
      rcases List.mem_cons.1 hj with rfl | hj
      · have := A.cnt_lt j (by simp); have := B.cnt_le; omega
      · exact B.cnt_lt j hj
    · rcases B.cnt_hit with e | ⟨j, hj, e⟩
      · rcases A.cnt_hit with e' | ⟨j, hj, e'⟩
        · left; omega
        · right
          rw [List.mem_singleton.1 hj] at e'
          exact ⟨i, by simp, by omega⟩
      · right; exact ⟨j, by simp [hj], e⟩

end
end Isomesh
