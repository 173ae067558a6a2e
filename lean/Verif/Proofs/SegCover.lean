import Verif.Proofs.Push
import Verif.Props.Octree
import Verif.Proofs.DcContour2

/-! The unit edges inside the cube of an octree and the minimal edges of its leaves. -/

namespace Isomesh
open Spec

section
variable {N L : Type}

/-- Midpoint in doubled coordinates. -/
def midOf (e : LEdge) : IVec3 :=
  ⟨2 * e.at_.x + if e.axis = .X then 1 else 0, 2 * e.at_.y + if e.axis = .Y then 1 else 0,
    2 * e.at_.z + if e.axis = .Z then 1 else 0⟩

theorem midOf_get (e : LEdge) (a : Axis) : (midOf e).get a = 2 * e.at_.get a + if a = e.axis then 1 else 0 := by
  cases a <;> simp only [midOf, IVec3.get, eq_comm]

theorem midOf_pt (e : LEdge) : EdgePt (midOf e) := by
  refine ⟨e.axis, ?_, ?_⟩
  · rw [midOf_get, if_pos rfl]; omega
  · intro a ha; rw [midOf_get, if_neg ha]; omega

theorem cov_iff {ev : EdgeEv L} {e : LEdge} : ev.cov (midOf e) = true ↔
    ev.D = e.axis ∧ ∃ s : Nat, s < 2 ^ ev.j ∧ e.at_ = segEnd ev.D ev.p s := by
  have hpos := two_pow_pos' ev.j
  unfold EdgeEv.cov
  rw [decide_eq_true_eq, inF_iff]
  constructor
  · intro h
    have hD : ev.D = e.axis := by
      by_contra hne
      have := h e.axis
      unfold axIn edgeF at this
      rw [if_neg (by simpa using fun h => hne h.symm), midOf_get, if_pos rfl] at this
      omega
    refine ⟨hD, (e.at_.get ev.D - ev.p.get ev.D).toNat, ?_, ?_⟩
    · have := h ev.D
      unfold axIn edgeF at this
      rw [if_pos (by simp), midOf_get, if_pos hD] at this
      zify
      omega
    · apply ivec_ext
      intro a
      have := h a
      unfold axIn edgeF at this
      rw [segEnd_get]
      by_cases ha : a = ev.D
      · subst ha
        rw [if_pos (by simp), midOf_get, if_pos hD] at this
        rw [if_pos rfl]
        omega
      · rw [if_neg (by simpa using ha), midOf_get, if_neg (by rw [← hD]; exact ha)] at this
        rw [if_neg ha]
        omega
  · rintro ⟨hD, s, hs, he⟩ a
    unfold axIn edgeF
    have hs' : (s : Int) < 2 ^ ev.j := by exact_mod_cast hs
    have := segEnd_get ev.D ev.p s a
    rw [← he] at this
    by_cases ha : a = ev.D
    · rw [if_pos (by simpa using ha), midOf_get, if_pos (by rw [← hD]; exact ha)]
      rw [if_pos ha] at this
      omega
    · rw [if_neg (by simpa using ha), midOf_get, if_neg (by rw [← hD]; exact ha)]
      rw [if_neg ha] at this
      omega

theorem minSeg_good {t : Oct N L} {c : Cube} {D : Axis} {p : IVec3} {j : Nat} {q : Fin 4 → Cube}
    (h : MinimalSeg (leafCubes t c) D p j q) : ∃ q' : Fin 4 → Cube × L, (∀ i, (q' i).1 = q i) ∧
      (⟨D, p, j, q'⟩ : EdgeEv L).Good (locate t c).leaves := by
  have : ∀ i, ∃ x ∈ (locate t c).leaves, x.1 = q i := fun i => List.mem_map.1 (h.leaf i)
  choose q' h1 h2 using this
  refine ⟨q', h2, h1, ?_, ?_⟩
  · intro i; rw [h2]; exact h.contains i
  · obtain ⟨i, hi⟩ := h.least
    exact ⟨i, by rw [h2]; exact hi⟩

theorem good_minSeg {t : Oct N L} {c : Cube} {e : EdgeEv L} (h : e.Good (locate t c).leaves) :
    MinimalSeg (leafCubes t c) e.D e.p e.j fun i => (e.q i).1 :=
  ⟨fun i => List.mem_map.2 ⟨_, h.leaf i, rfl⟩, h.contains, h.least⟩

/-- A unit edge is on at most one minimal edge. -/
theorem minSeg_unique {t : Oct N L} {c : Cube} (hp : Placed (locate t c) c) {D D' : Axis} {p p' : IVec3} {j j' : Nat}
    {q q' : Fin 4 → Cube} (h : MinimalSeg (leafCubes t c) D p j q) (h' : MinimalSeg (leafCubes t c) D' p' j' q') {s s' : Nat}
    (hs : s < 2 ^ j) (hs' : s' < 2 ^ j') (hD : D = D') (he : segEnd D p s = segEnd D' p' s') : p = p' ∧ j = j' ∧ q = q' := by
  obtain ⟨r, h1, h2⟩ := minSeg_good h
  obtain ⟨r', h1', h2'⟩ := minSeg_good h'
  have := good_unique hp h2 h2' (midOf_pt ⟨D, segEnd D p s⟩) (cov_iff.2 ⟨rfl, s, hs, rfl⟩) (cov_iff.2 ⟨hD.symm, s', hs', he⟩)
  simp only [EdgeEv.mk.injEq] at this
  refine ⟨this.2.1, this.2.2.1, ?_⟩
  funext i
  rw [← h1, ← h1', this.2.2.2]

/-- The unit cells around a unit edge of a minimal edge belong to the leaves around it. -/
theorem minSeg_cells {cubes : List Cube} {D : Axis} {p : IVec3} {j : Nat} {q : Fin 4 → Cube} (h : MinimalSeg cubes D p j q) {s : Nat}
    (hs : s < 2 ^ j) (i : Fin 4) : (q i).Has (Spec.edgeCorner D (segEnd D p s) 1 i) := by
  apply cubeSub_has (h.contains i)
  rw [cubeHas_iff]
  intro a
  have hs' : (s : Int) < 2 ^ j := by exact_mod_cast hs
  simp only [Cube.side]
  rw [edgeCorner_get, edgeCorner_get, segEnd_get]
  have hoff : (a = D → (edgeOff D i).get a = 0) ∧ ((edgeOff D i).get a = 0 ∨ (edgeOff D i).get a = -1) := by
    revert i; cases D <;> cases a <;> decide
  have hpos := two_pow_pos' j
  by_cases ha : a = D
  · rw [if_pos ha, hoff.1 ha]; omega
  · rw [if_neg ha]
    rcases hoff.2 with e | e <;> rw [e] <;> omega

/-- A unit edge inside the cube of an octree is on a minimal edge, or two pairs of neighbouring cells around it belong to
the same leaves. -/
theorem seg_cover {t : Oct N L} {c : Cube} (hp : Placed (locate t c) c) {e : LEdge} (he : e ∈ cubeEdges c) :
    (∃ D p j q, ∃ s : Nat, MinimalSeg (leafCubes t c) D p j q ∧ s < 2 ^ j ∧ e = ⟨D, segEnd D p s⟩) ∨
    FlatAt (locate t c).leaves (midOf e) := by
  obtain ⟨A, -, h2, -, h4⟩ := cell_events (N := N) dcTravOK hp
  have hin : inF cellF c.lo c.side (midOf e) := by
    have hc := mem_cubeEdges.1 he
    have h0 : c.Has (Spec.edgeCorner e.axis e.at_ 1 0) := hc _ (by
      generalize e.axis = D; generalize e.at_ = p
      cases D <;> simp [cellsAroundEdge, Spec.edgeCorner, edgeOff, shift])
    have h2 : c.Has (Spec.edgeCorner e.axis e.at_ 1 2) := hc _ (by
      generalize e.axis = D; generalize e.at_ = p
      cases D <;> simp [cellsAroundEdge, Spec.edgeCorner, edgeOff, shift])
    rw [cubeHas_iff] at h0 h2
    rw [inF_iff]
    intro a
    have h0 := h0 a
    have h2 := h2 a
    rw [edgeCorner_get] at h0 h2
    unfold axIn cellF
    rw [if_pos rfl, midOf_get]
    have e2 : (edgeOff e.axis 2).get a = 0 := by generalize e.axis = D; cases D <;> cases a <;> rfl
    rw [e2] at h2
    by_cases ha : a = e.axis
    · rw [if_pos ha]; omega
    · have e1 : (edgeOff e.axis 0).get a = -1 := by
        generalize e.axis = D at ha; cases D <;> cases a <;> first | exact absurd rfl ha | rfl
      rw [if_neg ha]; rw [e1] at h0; omega
  rcases (h4 _ (midOf_pt e)).2 hin with h | ⟨-, h⟩
  · left
    obtain ⟨ev, hev, hcov⟩ := List.countP_pos_iff.1 (by omega : 0 < A.countP (EdgeEv.cov (midOf e)))
    obtain ⟨hD, s, hs, hat⟩ := cov_iff.1 hcov
    refine ⟨ev.D, ev.p, ev.j, _, s, good_minSeg ((h2 ev).1 hev), hs, ?_⟩
    obtain ⟨D, at_⟩ := e
    simp only at hD hat
    rw [hat, hD]
  · exact Or.inr h

end

instance (c : Cube) (u : IVec3) : Decidable (c.Has u) := by unfold Cube.Has; infer_instance

/-- The cube of the list that has the cell. -/
def cubeAt (cubes : List Cube) (u : IVec3) : Cube := (cubes.find? fun c => decide (c.Has u)).getD ⟨⟨0, 0, 0⟩, 0⟩

theorem cubeAt_eq {N L : Type} {t : Oct N L} {c : Cube} (hp : Placed (locate t c) c) {l : Cube} (hl : l ∈ leafCubes t c) {u : IVec3}
    (hu : l.Has u) : cubeAt (leafCubes t c) u = l := by
  unfold cubeAt
  cases h : (leafCubes t c).find? fun c => decide (c.Has u) with
  | none => rw [List.find?_eq_none] at h; exact absurd (decide_eq_true hu) (h l hl)
  | some l' =>
    have h1 := List.mem_of_find?_eq_some h
    have h2 : l'.Has u := of_decide_eq_true (by have := List.find?_some h; exact this)
    obtain ⟨x, hx, rfl⟩ := List.mem_map.1 hl
    obtain ⟨x', hx', rfl⟩ := List.mem_map.1 h1
    rw [leaf_unique hp x hx x' hx' u hu h2]
    rfl

theorem cycleNet_flat {α : Type} [DecidableEq α] (x y a b : α) : cycleNet x x y y a b = 0 ∧ cycleNet x y y x a b = 0 := by
  unfold cycleNet
  rw [ind_swap y x a b, ind_swap y x b a, ind_swap x x a b, ind_swap y y a b]
  constructor <;> ring

theorem flat_cycle {N L : Type} {t : Oct N L} {c : Cube} (hp : Placed (locate t c) c) {e : LEdge}
    (h : FlatAt (locate t c).leaves (midOf e)) (a b : Cube) :
    cycleNet (cubeAt (leafCubes t c) (Spec.edgeCorner e.axis e.at_ 1 0)) (cubeAt (leafCubes t c) (Spec.edgeCorner e.axis e.at_ 1 1))
      (cubeAt (leafCubes t c) (Spec.edgeCorner e.axis e.at_ 1 2)) (cubeAt (leafCubes t c) (Spec.edgeCorner e.axis e.at_ 1 3)) a b = 0 := by
  obtain ⟨D, x, y, z⟩ := e
  obtain ⟨A, hA, hf⟩ := h
  have same : ∀ u, Touch u (midOf ⟨D, x, y, z⟩) → Touch (nextCell A u) (midOf ⟨D, x, y, z⟩) →
      cubeAt (leafCubes t c) u = cubeAt (leafCubes t c) (nextCell A u) := by
    intro u h1 h2
    obtain ⟨l, hl, l1, l2⟩ := hf u h1 h2
    have hl' : l.1 ∈ leafCubes t c := List.mem_map.2 ⟨l, hl, rfl⟩
    rw [cubeAt_eq hp hl' l1, cubeAt_eq hp hl' l2]
  have htouch : ∀ i, Touch (Spec.edgeCorner D ⟨x, y, z⟩ 1 i) (midOf ⟨D, x, y, z⟩) := by
    intro i b
    rw [midOf_get, edgeCorner_get]
    dsimp only
    have hoff : (b = D → (edgeOff D i).get b = 0) ∧ ((edgeOff D i).get b = 0 ∨ (edgeOff D i).get b = -1) := by
      revert i; cases D <;> cases b <;> decide
    by_cases hb : b = D
    · rw [if_pos hb, hoff.1 hb]; constructor <;> omega
    · rw [if_neg hb]
      rcases hoff.2 with e | e <;> rw [e] <;> constructor <;> omega
  have key : ∀ i i', nextCell A (Spec.edgeCorner D ⟨x, y, z⟩ 1 i) = Spec.edgeCorner D ⟨x, y, z⟩ 1 i' →
      cubeAt (leafCubes t c) (Spec.edgeCorner D ⟨x, y, z⟩ 1 i) = cubeAt (leafCubes t c) (Spec.edgeCorner D ⟨x, y, z⟩ 1 i') := by
    intro i i' hii
    rw [← hii]
    exact same _ (htouch i) (hii ▸ htouch i')
  have hAD : A ≠ D := by
    rintro rfl
    rw [midOf_get, if_pos rfl] at hA
    omega
  simp only
  cases D <;> cases A
  case X.X | Y.Y | Z.Z => exact absurd rfl hAD
  case X.Y | Y.Z | Z.X =>
    rw [key 0 1 (by simp [nextCell, Spec.edgeCorner, edgeOff]), key 3 2 (by simp [nextCell, Spec.edgeCorner, edgeOff])]
    exact (cycleNet_flat _ _ _ _).1
  all_goals
    rw [key 0 3 (by simp [nextCell, Spec.edgeCorner, edgeOff]), key 1 2 (by simp [nextCell, Spec.edgeCorner, edgeOff])]
    exact (cycleNet_flat _ _ _ _).2

end Isomesh
