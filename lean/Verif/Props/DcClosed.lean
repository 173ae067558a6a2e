import Verif.Proofs.SegCover
import Verif.Props.DcOctree

/-! C58: the surface of `DC_Octree` is closed and consistently oriented, whatever was collapsed. -/

namespace Isomesh
open Spec

set_option linter.unusedSectionVars false
variable {K : Type} [Add K] [_root_.Sub K] [Mul K] [Div K] [Neg K] [Zero K] [One K] [OfNat K 2] [OfScientific K] [NatCast K] [IntCast K]
  [Fabs K] [Elem K] [LinearOrder K] [RoundedLaws K]

/-- Net number of sides from `a` to `b`. -/
def netSides (T : List (Nat × Nat × Nat)) (a b : Nat) : Int := ((sides T).count (a, b) : Int) - ((sides T).count (b, a) : Int)

theorem netSides_nil (a b : Nat) : netSides [] a b = 0 := by simp [netSides, sides]

theorem netSides_append (S T : List (Nat × Nat × Nat)) (a b : Nat) : netSides (S ++ T) a b = netSides S a b + netSides T a b := by
  unfold netSides sides
  rw [List.flatMap_append, List.count_append, List.count_append]
  push_cast
  ring

theorem netSides_cons (t : Nat × Nat × Nat) (T : List (Nat × Nat × Nat)) (a b : Nat) :
    netSides (t :: T) a b = netSides [t] a b + netSides T a b := netSides_append [t] T a b

theorem netSides_one (x y z a b : Nat) : netSides [(x, y, z)] a b =
    ind x y a b + ind y z a b + ind z x a b - (ind x y b a + ind y z b a + ind z x b a) := by
  simp only [netSides, sides, List.flatMap_cons, List.flatMap_nil, List.append_nil, count_cons_ind, List.count_nil]
  push_cast
  ring

theorem netSides_flatMap {α : Type} (l : List α) (f : α → List (Nat × Nat × Nat)) (a b : Nat) :
    netSides (l.flatMap f) a b = (l.map fun x => netSides (f x) a b).sum := by
  induction l with
  | nil => simp [netSides_nil]
  | cons x l ih => rw [List.flatMap_cons, netSides_append, List.map_cons, List.sum_cons, ih]

theorem netSides_filter (T : List (Nat × Nat × Nat)) (a b : Nat) :
    netSides (T.filter fun t => decide (t.1 ≠ t.2.1 ∧ t.2.1 ≠ t.2.2 ∧ t.1 ≠ t.2.2)) a b = netSides T a b := by
  induction T with
  | nil => rfl
  | cons t T ih =>
    rw [List.filter_cons]
    split
    · rw [netSides_cons, ih, ← netSides_cons]
    · rename_i h
      rw [netSides_cons, ih]
      obtain ⟨x, y, z⟩ := t
      rw [netSides_one]
      have : x = y ∨ y = z ∨ x = z := by
        by_contra hc
        simp only [not_or] at hc
        exact h (decide_eq_true ⟨hc.1, hc.2.1, hc.2.2⟩)
      rcases this with rfl | rfl | rfl
      · rw [ind_swap z x a b, ind_swap z x b a, ind_swap x x a b]; ring
      · rw [ind_swap y x a b, ind_swap y x b a, ind_swap y y a b]; ring
      · rw [ind_swap y x a b, ind_swap y x b a, ind_swap x x a b]; ring

theorem octQuad_net (v0 v1 v2 v3 a b : Nat) (s : Bool) :
    netSides (octQuad v0 v1 v2 v3 s) a b = (if s then 1 else -1) * cycleNet v0 v1 v2 v3 a b := by
  unfold octQuad
  rw [netSides_filter]
  cases s
  · simp only [Bool.false_eq_true, if_false]
    rw [netSides_cons, netSides_one, netSides_one]
    unfold cycleNet
    rw [ind_swap v0 v2 a b, ind_swap v2 v1 a b, ind_swap v1 v0 a b, ind_swap v0 v2 b a, ind_swap v2 v1 b a, ind_swap v1 v0 b a,
      ind_swap v0 v3 a b, ind_swap v3 v2 a b, ind_swap v0 v3 b a, ind_swap v3 v2 b a]
    ring
  · simp only [if_true]
    rw [netSides_cons, netSides_one, netSides_one]
    unfold cycleNet
    rw [ind_swap v0 v2 a b, ind_swap v0 v2 b a]
    ring

/-- The unit edges of a minimal edge. -/
def unitsOf (v : Axis × IVec3 × Nat × (Fin 4 → Cube)) : List LEdge :=
  (List.range (2 ^ v.2.2.1)).map fun s => (⟨v.1, segEnd v.1 v.2.1 (s : Nat)⟩ : LEdge)

theorem segEnd_succ (D : Axis) (p : IVec3) (s : Nat) : edgeEnd D (segEnd D p s) = segEnd D p ((s + 1 : Nat) : Int) := by
  cases D <;> simp [segEnd, edgeEnd, shift] <;> ring

theorem units_telescope (σ : IVec3 → Int) (D : Axis) (p : IVec3) (n : Nat) :
    ((List.range n).map fun s => drop σ ⟨D, segEnd D p (s : Nat)⟩).sum = σ p - σ (segEnd D p n) := by
  induction n with
  | zero =>
    have : segEnd D p ((0 : Nat) : Int) = p := by cases D <;> simp [segEnd, shift]
    simp only [List.range_zero, List.map_nil, List.sum_nil]
    rw [this]; ring
  | succ n ih =>
    rw [List.range_succ, List.map_append, List.sum_append, ih]
    simp only [List.map_cons, List.map_nil, List.sum_cons, List.sum_nil, drop]
    rw [segEnd_succ]
    ring

theorem sum_flatMap' {α β : Type} (l : List α) (f : α → List β) (F : β → Int) :
    ((l.flatMap f).map F).sum = (l.map fun x => ((f x).map F).sum).sum := by
  induction l with
  | nil => rfl
  | cons x l ih => rw [List.flatMap_cons, List.map_append, List.sum_append, ih, List.map_cons, List.sum_cons]

/-- Sum over minimal edges as a sum over unit edges. -/
theorem seg_sum {N L : Type} {t : Oct N L} {c : Cube} (hp : Placed (locate t c) c) {visits : List (Axis × IVec3 × Nat × (Fin 4 → Cube))}
    (hnd : (visits.map fun v => (v.1, v.2.1, v.2.2.1)).Nodup)
    (hv : ∀ D p j q, (D, p, j, q) ∈ visits ↔ MinimalSeg (leafCubes t c) D p j q) (σ : IVec3 → Int) (a b : Cube) :
    (visits.map fun v => (σ v.2.1 - σ (segEnd v.1 v.2.1 (2 ^ v.2.2.1))) * cycleNet (v.2.2.2 0) (v.2.2.2 1) (v.2.2.2 2) (v.2.2.2 3) a b).sum =
    ∑ e ∈ cubeEdges c, drop σ e * cycleNet (cubeAt (leafCubes t c) (Spec.edgeCorner e.axis e.at_ 1 0))
      (cubeAt (leafCubes t c) (Spec.edgeCorner e.axis e.at_ 1 1)) (cubeAt (leafCubes t c) (Spec.edgeCorner e.axis e.at_ 1 2))
      (cubeAt (leafCubes t c) (Spec.edgeCorner e.axis e.at_ 1 3)) a b := by
  set F : LEdge → Int := fun e => drop σ e * cycleNet (cubeAt (leafCubes t c) (Spec.edgeCorner e.axis e.at_ 1 0))
      (cubeAt (leafCubes t c) (Spec.edgeCorner e.axis e.at_ 1 1)) (cubeAt (leafCubes t c) (Spec.edgeCorner e.axis e.at_ 1 2))
      (cubeAt (leafCubes t c) (Spec.edgeCorner e.axis e.at_ 1 3)) a b with hF
  have hmem : ∀ e, e ∈ visits.flatMap unitsOf ↔ ∃ D p j q, ∃ s : Nat, MinimalSeg (leafCubes t c) D p j q ∧ s < 2 ^ j ∧ e = ⟨D, segEnd D p s⟩ := by
    intro e
    rw [List.mem_flatMap]
    constructor
    · rintro ⟨⟨D, p, j, q⟩, h1, h2⟩
      obtain ⟨s, hs, rfl⟩ := List.mem_map.1 h2
      exact ⟨D, p, j, q, s, (hv D p j q).1 h1, List.mem_range.1 hs, rfl⟩
    · rintro ⟨D, p, j, q, s, h1, h2, rfl⟩
      exact ⟨_, (hv D p j q).2 h1, List.mem_map.2 ⟨s, List.mem_range.2 h2, rfl⟩⟩
  have hnd2 : (visits.flatMap unitsOf).Nodup := by
    rw [List.nodup_flatMap]
    constructor
    · rintro ⟨D, p, j, q⟩ -
      apply List.Nodup.map _ List.nodup_range
      intro s s' h
      simp only [LEdge.mk.injEq, true_and] at h
      have := congrArg (fun v => v.get D) h
      simp only [segEnd_get, if_true] at this
      omega
    · unfold List.Nodup at hnd
      rw [List.pairwise_map] at hnd
      refine (List.Pairwise.and_mem.1 hnd).imp ?_
      rintro ⟨D, p, j, q⟩ ⟨D', p', j', q'⟩ ⟨h1, h2, h3⟩ e he he'
      obtain ⟨s, hs, rfl⟩ := List.mem_map.1 he
      obtain ⟨s', hs', h⟩ := List.mem_map.1 he'
      simp only [LEdge.mk.injEq] at h
      have := minSeg_unique hp ((hv _ _ _ _).1 h1) ((hv _ _ _ _).1 h2) (List.mem_range.1 hs) (List.mem_range.1 hs') h.1.symm h.2.symm
      apply h3
      simp only [Prod.mk.injEq]
      exact ⟨h.1.symm, this.1, this.2.1⟩
  have hsub : ∀ v ∈ visits, ∀ e ∈ unitsOf v, ∀ i, cubeAt (leafCubes t c) (Spec.edgeCorner e.axis e.at_ 1 i) = v.2.2.2 i ∧
      c.Has (Spec.edgeCorner e.axis e.at_ 1 i) := by
    rintro ⟨D, p, j, q⟩ hm e he i
    obtain ⟨s, hs, rfl⟩ := List.mem_map.1 he
    have hseg := (hv _ _ _ _).1 hm
    have hh := minSeg_cells hseg (List.mem_range.1 hs) i
    refine ⟨cubeAt_eq hp (hseg.leaf i) hh, ?_⟩
    obtain ⟨x, hx, hxe⟩ := List.mem_map.1 (hseg.leaf i)
    have := leaf_sub hp x hx
    rw [hxe] at this
    exact cubeSub_has this hh
  have h1 : ∑ e ∈ cubeEdges c, F e = ∑ e ∈ (visits.flatMap unitsOf).toFinset, F e := by
    symm
    apply Finset.sum_subset
    · intro e he
      obtain ⟨v, hvm, he⟩ := List.mem_flatMap.1 (List.mem_toFinset.1 he)
      rw [mem_cubeEdges]
      intro P hP
      have hs := hsub v hvm e he
      rw [edgeCorner_cells] at hP
      simp only [List.mem_cons, List.not_mem_nil, or_false] at hP
      rcases hP with rfl | rfl | rfl | rfl <;> exact (hs _).2
    · intro e he hn
      rcases seg_cover hp he with h | h
      · exact absurd (List.mem_toFinset.2 ((hmem e).2 h)) hn
      · rw [hF]
        simp only
        rw [flat_cycle hp h, mul_zero]
  rw [h1, List.sum_toFinset F hnd2, sum_flatMap']
  congr 1
  apply List.map_congr_left
  intro v hvm
  have : (unitsOf v).map F = ((unitsOf v).map (drop σ)).map (· * cycleNet (v.2.2.2 0) (v.2.2.2 1) (v.2.2.2 2) (v.2.2.2 3) a b) := by
    rw [List.map_map]
    apply List.map_congr_left
    intro e he
    have := hsub v hvm e he
    simp only [hF, Function.comp, (this 0).1, (this 1).1, (this 2).1, (this 3).1]
  rw [this, List.sum_map_mul_right, List.map_id']
  congr 1
  rw [unitsOf, List.map_map]
  have ht := units_telescope σ v.1 v.2.1 (2 ^ v.2.2.1)
  rw [← show (((2 ^ v.2.2.1 : Nat) : Int)) = 2 ^ v.2.2.1 by push_cast; rfl, ← ht]
  rfl

/-- C58.  In the mesh of an octree built with any error bound, simplified or not, each directed side from the vertex of the
leaf `A` to the vertex of the leaf `B` occurs as often as its reverse, unless cells of `A` and `B` have a common crossing
edge on the boundary of the octree's cube. -/
theorem C58_closed {env : DcEnv K} {g : Grid K} (hg : Filled g) {o o' o'' : DcOctree K} {solver q' : Qef K 3} {epsilon : K}
    {simplify : Bool} (hin : CubeIn g.maxCoord (rootCube o.level))
    (hb : o.build env g solver epsilon simplify = some (q', o')) {r : PlacedMesh K} (hc : o'.contour = some (r, o''))
    {a b : Nat} {A B : Cube}
    (ha : ((leafCubes o'.root (rootCube o.level)).filter fun c => decide (Hetero g c))[a]? = some A)
    (hb' : ((leafCubes o'.root (rootCube o.level)).filter fun c => decide (Hetero g c))[b]? = some B)
    (hborder : ¬ ∃ D p P Q, CrossingEdge g D p ∧ OnBorder (rootCube o.level) D p ∧ EdgeOfCell P D p ∧ EdgeOfCell Q D p ∧
      A.Has P ∧ B.Has Q) :
    (sides (triangles r.mesh.indices)).count (a, b) = (sides (triangles r.mesh.indices)).count (b, a) := by
  obtain ⟨ht, -⟩ := build_ok hg hin hb
  have hpl := placed_locate o'.root (rootCube o.level) (treeOK_height ht)
  obtain ⟨r', o1, visits, h1⟩ := C22_contour hg hin hb
  simp only at h1
  obtain ⟨h1, -, -, hnd, hv, htri, hcells, -, hcn, -⟩ := h1
  rw [hc] at h1
  cases h1
  set cells := (leafCubes o'.root (rootCube o.level)).filter fun c => decide (Hetero g c) with hcd
  have hidx : ∀ {k : Nat} {P : Cube}, cells[k]? = some P → cells.idxOf P = k ∧ P ∈ cells := by
    intro k P hk
    obtain ⟨hk', rfl⟩ := List.getElem?_eq_some_iff.1 hk
    exact ⟨hcn.idxOf_getElem k hk', List.getElem_mem hk'⟩
  obtain ⟨rfl, hA⟩ := hidx ha
  obtain ⟨rfl, hB⟩ := hidx hb'
  have hnet : netSides (triangles r.mesh.indices) (cells.idxOf A) (cells.idxOf B) = 0 := by
    rw [htri, netSides_flatMap]
    have hone : (visits.map fun v => netSides (octEdgeQuad g cells v.1 v.2.1 v.2.2.1 v.2.2.2) (cells.idxOf A) (cells.idxOf B)) =
        visits.map fun v => (sigma g v.2.1 - sigma g (segEnd v.1 v.2.1 (2 ^ v.2.2.1))) *
          cycleNet (v.2.2.2 0) (v.2.2.2 1) (v.2.2.2 2) (v.2.2.2 3) A B := by
      apply List.map_congr_left
      rintro ⟨D, p, j, q⟩ hvm
      unfold octEdgeQuad
      dsimp only
      by_cases hs : solidAt g p = solidAt g (segEnd D p (2 ^ j))
      · rw [if_pos hs, netSides_nil, sigma, sigma, hs]; ring
      · rw [if_neg hs, octQuad_net]
        have hm := hcells D p j q ((hv _ _ _ _).1 hvm) hs
        have hsg : (if solidAt g p = true then (1 : Int) else -1) = sigma g p - sigma g (segEnd D p (2 ^ j)) := by
          unfold sigma
          cases hA : solidAt g p <;> cases hB : solidAt g (segEnd D p (2 ^ j)) <;> rw [hA, hB] at hs <;> simp at hs ⊢
        rw [hsg]
        congr 1
        have hi : ∀ {x : Cube} {y : Cube}, x ∈ cells → (cells.idxOf x = cells.idxOf y ↔ x = y) := fun hx => List.idxOf_inj hx
        unfold cycleNet ind
        simp only [hi (hm _)]
    rw [hone, seg_sum hpl hnd hv (sigma g) A B]
    apply push_cells
    intro D p P Q hP hQ hPc hQc hPA hQB hne R hR
    by_contra hRn
    apply hborder
    obtain ⟨l, hl, hlP⟩ := leaf_exists hpl P hPc
    obtain ⟨l', hl', hlQ⟩ := leaf_exists hpl Q hQc
    have e1 := cubeAt_eq hpl (List.mem_map.2 ⟨l, hl, rfl⟩) hlP
    have e2 := cubeAt_eq hpl (List.mem_map.2 ⟨l', hl', rfl⟩) hlQ
    rw [hPA] at e1
    rw [hQB] at e2
    refine ⟨D, p, P, Q, ⟨?_, ?_⟩, ⟨R, hR, hRn⟩, hP, hQ, e1 ▸ hlP, e2 ▸ hlQ⟩
    · intro v hvv
      apply hin
      have h2 : Cube.Closed ⟨P, 0⟩ v := by
        have := hP v hvv
        simp only [cellVertices, shift, List.mem_cons, List.not_mem_nil, or_false] at this
        rw [cubeClosed_iff]
        intro a
        rcases this with rfl | rfl | rfl | rfl | rfl | rfl | rfl | rfl <;> cases a <;> simp [IVec3.get, Cube.side]
      apply closed_sub _ h2
      rw [cubeHas_iff] at hPc
      rw [cubeSub_iff]
      intro a
      have := hPc a
      simp only [Cube.side, pow_zero] at *
      omega
    · intro hss
      apply hne
      unfold sigma
      rw [hss]
  unfold netSides at hnet
  omega

/-- C58, closed surfaces: if no crossing edge lies on the boundary of the octree's cube, every directed side occurs as
often as its reverse. -/
theorem C58_closed_surface {env : DcEnv K} {g : Grid K} (hg : Filled g) {o o' o'' : DcOctree K} {solver q' : Qef K 3} {epsilon : K}
    {simplify : Bool} (hin : CubeIn g.maxCoord (rootCube o.level))
    (hb : o.build env g solver epsilon simplify = some (q', o')) {r : PlacedMesh K} (hc : o'.contour = some (r, o''))
    (hborder : ∀ D p, CrossingEdge g D p → (∃ P, (rootCube o.level).Has P ∧ EdgeOfCell P D p) → ¬ OnBorder (rootCube o.level) D p)
    (a b : Nat) :
    (sides (triangles r.mesh.indices)).count (a, b) = (sides (triangles r.mesh.indices)).count (b, a) := by
  set cells := (leafCubes o'.root (rootCube o.level)).filter fun c => decide (Hetero g c) with hcd
  by_cases hab : a < cells.length ∧ b < cells.length
  · refine C58_closed hg hin hb hc (List.getElem?_eq_getElem hab.1) (List.getElem?_eq_getElem hab.2) ?_
    rintro ⟨D, p, P, Q, h1, h2, h3, -, h5, -⟩
    refine hborder D p h1 ⟨P, ?_, h3⟩ h2
    obtain ⟨ht, -⟩ := build_ok hg hin hb
    have hpl := placed_locate o'.root (rootCube o.level) (treeOK_height ht)
    obtain ⟨x, hx, hxe⟩ := List.mem_map.1 (List.mem_filter.1 (List.getElem_mem hab.1)).1
    have := leaf_sub hpl x hx
    rw [hxe] at this
    exact cubeSub_has this h5
  · obtain ⟨r', o1, visits, h1⟩ := C22_contour hg hin hb
    simp only at h1
    obtain ⟨h1, -, -, -, -, -, -, hlen, -, -, hv, -⟩ := h1
    rw [hc] at h1
    cases h1
    have hz : ∀ x y, ¬ (x < cells.length ∧ y < cells.length) → (sides (triangles r.mesh.indices)).count (x, y) = 0 := by
      intro x y hxy
      rw [List.count_eq_zero]
      intro hm
      obtain ⟨t, ht, hm⟩ := List.mem_flatMap.1 hm
      obtain ⟨l1, l2, l3, -⟩ := hv t ht
      rw [hlen] at l1 l2 l3
      simp only [List.mem_cons, List.not_mem_nil, or_false, Prod.mk.injEq] at hm
      apply hxy
      rcases hm with ⟨rfl, rfl⟩ | ⟨rfl, rfl⟩ | ⟨rfl, rfl⟩ <;> exact ⟨by assumption, by assumption⟩
    rw [hz a b hab, hz b a (by tauto)]

end Isomesh
