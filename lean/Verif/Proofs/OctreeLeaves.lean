import Verif.Proofs.OctreeEdges

/-! Leaves of a placed octree tile its cube; traversals commute with relabelling. -/

namespace Isomesh
open Spec

section
variable {N L : Type}

theorem octOff_injective : ∀ i j : Fin 8, (octOff i).x = (octOff j).x → (octOff i).y = (octOff j).y →
    (octOff i).z = (octOff j).z → i = j := by decide

theorem octant_unique {o u : IVec3} {k : Nat} {i j : Fin 8} (hi : Cube.Has ⟨octCorner o (2 ^ k) i, k⟩ u)
    (hj : Cube.Has ⟨octCorner o (2 ^ k) j, k⟩ u) : i = j := by
  rw [cubeHas_iff] at hi hj
  have key : ∀ a, (octOff i).get a = (octOff j).get a := by
    intro a
    have h1 := hi a
    have h2 := hj a
    simp only [octCorner_get, Cube.side] at h1 h2
    have hpos := two_pow_pos' k
    rcases octOff_01 i a with e | e <;> rcases octOff_01 j a with e' | e' <;> rw [e] at h1 ⊢ <;> rw [e'] at h2 ⊢ <;> omega
  exact octOff_injective i j (key .X) (key .Y) (key .Z)

theorem octOff_surjective : ∀ x ∈ [(0 : Int), 1], ∀ y ∈ [(0 : Int), 1], ∀ z ∈ [(0 : Int), 1],
    ∃ i : Fin 8, (octOff i).x = x ∧ (octOff i).y = y ∧ (octOff i).z = z := by decide

theorem octant_exists {o u : IVec3} {k : Nat} (h : Cube.Has ⟨o, k + 1⟩ u) : ∃ i, Cube.Has ⟨octCorner o (2 ^ k) i, k⟩ u := by
  rw [cubeHas_iff] at h
  simp only [Cube.side, two_pow_succ'] at h
  let g : Axis → Int := fun a => if u.get a < o.get a + 2 ^ k then 0 else 1
  have hg : ∀ a, g a ∈ [(0 : Int), 1] := by intro a; simp only [g]; split <;> simp
  obtain ⟨i, hx, hy, hz⟩ := octOff_surjective _ (hg .X) _ (hg .Y) _ (hg .Z)
  have hi : ∀ a, (octOff i).get a = g a := by intro a; cases a; exacts [hx, hy, hz]
  refine ⟨i, ?_⟩
  rw [cubeHas_iff]
  intro a
  have := h a
  simp only [octCorner_get, hi, g, Cube.side]
  split <;> omega

theorem leaf_sub {t : Oct N (Cube × L)} : ∀ {c : Cube}, Placed t c → ∀ l ∈ t.leaves, l.1.Sub c := by
  induction t with
  | leaf d =>
    intro c hp l hl
    simp only [Oct.leaves, List.mem_singleton] at hl
    have hp : d.1 = c := hp
    rw [hl, hp]
    exact cubeSub_refl c
  | inner d ch ih =>
    intro c hp l hl
    obtain ⟨hk, hp⟩ := hp
    obtain ⟨lo, k⟩ := c
    obtain ⟨k, rfl⟩ := Nat.exists_eq_succ_of_ne_zero (Nat.pos_iff_ne_zero.1 hk)
    obtain ⟨i, -, hl⟩ := List.mem_flatMap.1 hl
    exact cubeSub_trans (ih i (hp i) l hl) (octant_sub i)

theorem leaf_unique {t : Oct N (Cube × L)} : ∀ {c : Cube}, Placed t c → ∀ l ∈ t.leaves, ∀ l' ∈ t.leaves, ∀ u,
    l.1.Has u → l'.1.Has u → l = l' := by
  induction t with
  | leaf d =>
    intro c _ l hl l' hl' u _ _
    simp only [Oct.leaves, List.mem_singleton] at hl hl'
    rw [hl, hl']
  | inner d ch ih =>
    intro c hp l hl l' hl' u hu hu'
    obtain ⟨hk, hp⟩ := hp
    obtain ⟨lo, k⟩ := c
    obtain ⟨k, rfl⟩ := Nat.exists_eq_succ_of_ne_zero (Nat.pos_iff_ne_zero.1 hk)
    obtain ⟨i, -, hl⟩ := List.mem_flatMap.1 hl
    obtain ⟨j, -, hl'⟩ := List.mem_flatMap.1 hl'
    have h1 := cubeSub_has (leaf_sub (hp i) l hl) hu
    have h2 := cubeSub_has (leaf_sub (hp j) l' hl') hu'
    obtain rfl := octant_unique h1 h2
    exact ih i (hp i) l hl l' hl' u hu hu'

theorem leaf_exists {t : Oct N (Cube × L)} : ∀ {c : Cube}, Placed t c → ∀ u, c.Has u → ∃ l ∈ t.leaves, l.1.Has u := by
  induction t with
  | leaf d =>
    intro c hp u hu
    have hp : d.1 = c := hp
    exact ⟨d, by simp [Oct.leaves], hp ▸ hu⟩
  | inner d ch ih =>
    intro c hp u hu
    obtain ⟨hk, hp⟩ := hp
    obtain ⟨lo, k⟩ := c
    obtain ⟨k, rfl⟩ := Nat.exists_eq_succ_of_ne_zero (Nat.pos_iff_ne_zero.1 hk)
    obtain ⟨i, hi⟩ := octant_exists hu
    obtain ⟨l, hl, hlu⟩ := ih i (hp i) u hi
    exact ⟨l, List.mem_flatMap.2 ⟨i, List.mem_finRange i, hl⟩, hlu⟩

/-! ### Relabelling -/

variable {N' L' : Type} (f : N → N') (g : L → L')

theorem isLeaf_map (n : Oct N L) : (n.map f g).isLeaf = n.isLeaf := by cases n <;> rfl

theorem sub_map (n : Oct N L) (i : Fin 8) : (n.map f g).sub i = (n.sub i).map f g := by cases n <;> rfl

theorem leaves_map (n : Oct N L) : (n.map f g).leaves = n.leaves.map g := by
  induction n with
  | leaf d => rfl
  | inner d ch ih =>
    simp only [Oct.map, Oct.leaves, ih]
    rw [map_flatMap']

/-- A call with relabelled nodes. -/
def mapCall (x : Axis × (Fin 4 → Oct N L)) : Axis × (Fin 4 → Oct N' L') := (x.1, fun i => (x.2 i).map f g)

theorem edgeProc_map (T : Trav) (D : Axis) (n : Fin 4 → Oct N L) :
    T.edgeProc D (fun i => (n i).map f g) = (T.edgeProc D n).map (mapCall f g) := by
  induction hm : maxHeight n using Nat.strong_induction_on generalizing n with
  | _ m ih =>
    subst hm
    by_cases h : ∀ j : Fin 8, (n (T.edgeChild D j).1).isLeaf = true
    · rw [Trav.edgeProc, Trav.edgeProc, dif_pos h, dif_pos (by simpa only [isLeaf_map] using h)]
      rfl
    · rw [Trav.edgeProc, Trav.edgeProc, dif_neg h, dif_neg (by simpa only [isLeaf_map] using h), map_flatMap']
      apply flatMap_congr'
      intro i _
      have := ih _ (maxHeight_lt (fun j => (T.edgeChild D j).1) (fun j => (T.edgeChild D j).2) h (T.edgeCall D i)) _ rfl
      simp only [Trav.edgeBlock, sub_map]
      exact this

theorem faceProc_map (T : Trav) (D : Axis) (n : Fin 2 → Oct N L) :
    T.faceProc D (fun i => (n i).map f g) = (T.faceProc D n).map (mapCall f g) := by
  induction hm : maxHeight n using Nat.strong_induction_on generalizing n with
  | _ m ih =>
    subst hm
    by_cases h : ∀ j : Fin 8, (n (T.faceChild D j).1).isLeaf = true
    · rw [Trav.faceProc, Trav.faceProc, dif_pos h, dif_pos (by simpa only [isLeaf_map] using h)]
      rfl
    · rw [Trav.faceProc, Trav.faceProc, dif_neg h, dif_neg (by simpa only [isLeaf_map] using h), List.map_append,
        map_flatMap', map_flatMap']
      congr 1
      · apply flatMap_congr'
        intro i _
        have := ih _ (maxHeight_lt (fun j => (T.faceChild D j).1) (fun j => (T.faceChild D j).2) h (T.faceCall D i)) _ rfl
        simp only [Trav.faceBlock, sub_map]
        exact this
      · apply flatMap_congr'
        intro D' _
        rw [map_flatMap']
        apply flatMap_congr'
        intro i _
        rw [← edgeProc_map]
        simp only [Trav.faceBlock, sub_map]

theorem cellCalls_map (T : Trav) (b : Fin 8 → Oct N L) :
    T.cellCalls (fun i => (b i).map f g) = (T.cellCalls b).map (mapCall f g) := by
  unfold Trav.cellCalls
  rw [map_flatMap']
  apply flatMap_congr'
  intro st _
  cases st with
  | face D i => exact faceProc_map f g T D _
  | edge D i => exact edgeProc_map f g T D _

theorem cellProc_map (T : Trav) (t : Oct N L) : T.cellProc (t.map f g) = (T.cellProc t).map (mapCall f g) := by
  induction t with
  | leaf d => rfl
  | inner d ch ih =>
    simp only [Oct.map, Trav.cellProc, List.map_append, map_flatMap']
    congr 1
    · exact flatMap_congr' fun i _ => ih i
    · exact cellCalls_map f g T ch

theorem locate_map (t : Oct N L) (c : Cube) : (locate t c).map id Prod.snd = t := by
  induction t generalizing c with
  | leaf d => rfl
  | inner d ch ih =>
    simp only [locate, Oct.map, id]
    congr 1
    funext i
    exact ih i _

end
end Isomesh
