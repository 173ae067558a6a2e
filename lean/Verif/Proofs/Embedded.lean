import Verif.Proofs.EmbeddedCell
import Verif.Proofs.Chunks
import Verif.Proofs.Volume
import Mathlib.Algebra.Order.BigOperators.Group.Finset

/-! Marching cubes triangles of the cells of a lattice: any two meet only in common vertices and sides. -/

namespace Isomesh
open Spec

variable {K : Type} [Field K] [LinearOrder K] [IsStrictOrderedRing K]

/-! ### Convex hulls -/

section
variable {ι : Type} [DecidableEq ι] {pos : ι → Vec3 K} {S T : Finset ι} {x : Vec3 K}

theorem Spec.Hull.mono (h : Hull pos S x) (hST : S ⊆ T) : Hull pos T x := by
  obtain ⟨w, h0, h1, h2⟩ := h
  refine ⟨fun i => if i ∈ S then w i else 0, fun i _ => ?_, ?_, fun a => ?_⟩
  · beta_reduce
    split_ifs with hi
    · exact h0 i hi
    · exact le_rfl
  · rw [← h1, Finset.sum_ite_mem, Finset.inter_eq_right.2 hST]
  · rw [← h2 a]
    simp only [ite_mul, zero_mul]
    rw [Finset.sum_ite_mem, Finset.inter_eq_right.2 hST]

theorem Spec.Hull.nonempty (h : Hull pos S x) : S.Nonempty := by
  obtain ⟨w, -, h1, -⟩ := h
  rw [Finset.nonempty_iff_ne_empty]
  rintro rfl
  simp at h1

/-- An affine function of a point of the hull. -/
theorem hull_affine {w : ι → K} (h1 : ∑ i ∈ S, w i = 1) (h2 : ∀ a, ∑ i ∈ S, w i * (pos i).get a = x.get a) (n : Vec3 K) (c : K) :
    ∑ i ∈ S, w i * (n.dot (pos i) - c) = n.dot x - c := by
  have e : ∀ i ∈ S, w i * (n.dot (pos i) - c) = n.x * (w i * (pos i).get .X) + n.y * (w i * (pos i).get .Y) + n.z * (w i * (pos i).get .Z) - c * w i := by
    intro i _
    simp only [Vec3.dot, Vec3.get]
    ring
  rw [Finset.sum_congr rfl e, Finset.sum_sub_distrib, Finset.sum_add_distrib, Finset.sum_add_distrib, ← Finset.mul_sum, ← Finset.mul_sum,
    ← Finset.mul_sum, ← Finset.mul_sum, h1, h2, h2, h2]
  simp only [Vec3.dot, Vec3.get]
  ring

/-- A point on the plane that bounds all points is in the hull of those on the plane. -/
theorem hull_face (n : Vec3 K) (c : K) (h : Hull pos S x) (h0 : ∀ i ∈ S, 0 ≤ n.dot (pos i) - c) (hx : n.dot x - c ≤ 0) :
    Hull pos (S.filter fun i => n.dot (pos i) - c = 0) x := by
  obtain ⟨w, w0, w1, w2⟩ := h
  have hs := hull_affine w1 w2 n c
  have hnn : ∀ i ∈ S, 0 ≤ w i * (n.dot (pos i) - c) := fun i hi => mul_nonneg (w0 i hi) (h0 i hi)
  have hz : ∀ i ∈ S, w i * (n.dot (pos i) - c) = 0 := by
    have : ∑ i ∈ S, w i * (n.dot (pos i) - c) = 0 := le_antisymm (by rw [hs]; exact hx) (Finset.sum_nonneg hnn)
    exact (Finset.sum_eq_zero_iff_of_nonneg hnn).1 this
  have hw : ∀ i ∈ S, i ∉ S.filter (fun i => n.dot (pos i) - c = 0) → w i = 0 := by
    intro i hi hn
    rcases mul_eq_zero.1 (hz i hi) with h | h
    · exact h
    · exact absurd (Finset.mem_filter.2 ⟨hi, h⟩) hn
  refine ⟨w, fun i hi => w0 i (Finset.mem_of_mem_filter i hi), ?_, fun a => ?_⟩
  · rw [← w1]
    exact Finset.sum_subset (Finset.filter_subset _ _) hw
  · rw [← w2 a]
    exact Finset.sum_subset (Finset.filter_subset _ _) fun i hi hn => by rw [hw i hi hn, zero_mul]

/-- The common points of two hulls separated by a plane. -/
theorem hull_separated (n : Vec3 K) (c : K) (hS : ∀ i ∈ S, 0 ≤ n.dot (pos i) - c) (h0 : ∀ i ∈ T, i ∈ S → n.dot (pos i) - c = 0)
    (h1 : ∀ i ∈ T, i ∉ S → n.dot (pos i) - c < 0) (hx : Hull pos S x) (hx' : Hull pos T x) : Hull pos (S ∩ T) x := by
  have hle : ∀ i ∈ T, n.dot (pos i) - c ≤ 0 := fun i hi => by
    by_cases hs : i ∈ S
    · exact (h0 i hi hs).le
    · exact (h1 i hi hs).le
  have hge : 0 ≤ n.dot x - c := by
    obtain ⟨w, w0, w1, w2⟩ := hx
    rw [← hull_affine w1 w2 n c]
    exact Finset.sum_nonneg fun i hi => mul_nonneg (w0 i hi) (hS i hi)
  have key := hull_face (⟨-n.x, -n.y, -n.z⟩ : Vec3 K) (-c) hx' (fun i hi => by
    have := hle i hi
    simp only [Vec3.dot] at this ⊢
    linarith) (by
    simp only [Vec3.dot] at hge ⊢
    linarith)
  refine key.mono fun i hi => ?_
  obtain ⟨hT, he⟩ := Finset.mem_filter.1 hi
  rw [Finset.mem_inter]
  refine ⟨?_, hT⟩
  by_contra hs
  have := h1 i hT hs
  simp only [Vec3.dot] at he this
  linarith

theorem Spec.MeetProperly.symm {t u : ι × ι × ι} (h : MeetProperly pos t u) : MeetProperly pos u t := by
  unfold MeetProperly at h ⊢
  rw [Finset.inter_comm]
  exact ⟨h.1, fun x hx hx' => h.2 x hx' hx⟩

theorem hull_single {i : ι} (h : Hull pos {i} x) : x = pos i := by
  obtain ⟨w, -, w1, w2⟩ := h
  simp only [Finset.sum_singleton] at w1 w2
  rw [w1] at w2
  simp only [one_mul] at w2
  ext
  · exact (w2 .X).symm
  · exact (w2 .Y).symm
  · exact (w2 .Z).symm

/-- Hulls of renamed points. -/
theorem hull_image {κ : Type} [DecidableEq κ] {f : κ → ι} {S : Finset κ} (hf : ∀ i ∈ S, ∀ j ∈ S, f i = f j → i = j) {q : κ → Vec3 K}
    (hq : ∀ i ∈ S, q i = pos (f i)) : Hull q S x ↔ Hull pos (S.image f) x := by
  constructor
  · rintro ⟨w, w0, w1, w2⟩
    classical
    let g : ι → K := fun j => ∑ i ∈ S.filter (fun i => f i = j), w i
    have hg : ∀ i ∈ S, g (f i) = w i := by
      intro i hi
      have : S.filter (fun k => f k = f i) = {i} := by
        ext k
        rw [Finset.mem_filter, Finset.mem_singleton]
        exact ⟨fun h => hf k h.1 i hi h.2, fun h => by subst h; exact ⟨hi, rfl⟩⟩
      show ∑ k ∈ S.filter (fun k => f k = f i), w k = w i
      rw [this, Finset.sum_singleton]
    refine ⟨g, fun j hj => ?_, ?_, fun a => ?_⟩
    · obtain ⟨i, hi, rfl⟩ := Finset.mem_image.1 hj
      rw [hg i hi]; exact w0 i hi
    · rw [Finset.sum_image hf, Finset.sum_congr rfl hg, w1]
    · rw [Finset.sum_image hf, ← w2 a]
      exact Finset.sum_congr rfl fun i hi => by rw [hg i hi, hq i hi]
  · rintro ⟨w, w0, w1, w2⟩
    rw [Finset.sum_image hf] at w1
    refine ⟨fun i => w (f i), fun i hi => w0 _ (Finset.mem_image_of_mem f hi), w1, fun a => ?_⟩
    have := w2 a
    rw [Finset.sum_image hf] at this
    rw [← this]
    exact Finset.sum_congr rfl fun i hi => by rw [hq i hi]

end

/-! ### The lattice -/

/-- The vertex on a lattice edge. -/
def edgePos (τ : LEdge → K) (E : LEdge) : Vec3 K := (toVec E.at_ : Vec3 K).set E.axis ((toVec E.at_ : Vec3 K).get E.axis + τ E)

theorem edgePos_slot (τ : LEdge → K) (P : IVec3) {i : Nat} (hi : i < 12) :
    edgePos τ (slotEdge P i) = (toVec P : Vec3 K).add (relPoint i (volT τ P i)) := by
  unfold edgePos volT
  generalize τ (slotEdge P i) = t
  obtain ⟨x, y, z⟩ := P
  interval_cases i <;> simp [slotEdge, slotAxis, relPoint, slotOff, edgeCorner, kCellEdgeEndpoint, cornerPos, shift,
    Vec3.add, Vec3.set, Vec3.get, toVec] <;> ring

/-- The triangles of a cell, by lattice edges. -/
def latTriangles (s : IVec3 → Bool) (P : IVec3) : List (LEdge × LEdge × LEdge) :=
  (mcTriangles (latMask s P)).map fun t => (slotEdge P t.1, slotEdge P t.2.1, slotEdge P t.2.2)

theorem mem_corners {ι : Type} [DecidableEq ι] {t : ι × ι × ι} {i : ι} : i ∈ corners t ↔ i = t.1 ∨ i = t.2.1 ∨ i = t.2.2 := by
  simp [corners]

variable {s : IVec3 → Bool} {τ : LEdge → K}

/-- Corners of a cell's triangle. -/
theorem corners_lat {P : IVec3} {A : Nat × Nat × Nat} :
    corners (slotEdge P A.1, slotEdge P A.2.1, slotEdge P A.2.2) = (corners A).image (slotEdge P) := by
  ext E
  simp only [mem_corners, Finset.mem_image, or_and_right, exists_or, exists_eq_left]
  exact or_congr eq_comm (or_congr eq_comm eq_comm)

theorem mem_tripleList {A : Nat × Nat × Nat} {v : Nat} : v ∈ tripleList A ↔ v ∈ corners A := by
  simp [tripleList, corners]

theorem slots_inj {P : IVec3} {S : Finset Nat} (hS : ∀ v ∈ S, v < 12) : ∀ i ∈ S, ∀ j ∈ S, slotEdge P i = slotEdge P j → i = j :=
  fun i hi j hj e => slotEdge_inj (hS i hi) (hS j hj) e

/-- Triangles of one cell meet properly. -/
theorem lat_same_cell (hτ : ∀ E, 0 < τ E ∧ τ E < 1) (P : IVec3) : (latTriangles s P).Pairwise (MeetProperly (edgePos τ)) := by
  unfold latTriangles
  rw [List.pairwise_map]
  have hm := latMask_lt s P
  have key := cell_separated hm (t := volT τ P) (fun i => hτ (slotEdge P i))
  refine key.imp_of_mem ?_
  have main : ∀ A ∈ mcTriangles (latMask s P), ∀ B ∈ mcTriangles (latMask s P), ∀ n c,
      Separates (fun v => relPoint v (volT τ P v)) A B n c →
      MeetProperly (edgePos τ) (slotEdge P A.1, slotEdge P A.2.1, slotEdge P A.2.2) (slotEdge P B.1, slotEdge P B.2.1, slotEdge P B.2.2) := by
    rintro A hA B hB n c ⟨h1, h2, h3, v0, hv0, hv0'⟩
    have lA : ∀ v ∈ corners A, v < 12 := by
      obtain ⟨l1, l2, l3⟩ := tri_lt hm hA
      intro v hv
      rcases mem_corners.1 hv with rfl | rfl | rfl <;> assumption
    have lB : ∀ v ∈ corners B, v < 12 := by
      obtain ⟨l1, l2, l3⟩ := tri_lt hm hB
      intro v hv
      rcases mem_corners.1 hv with rfl | rfl | rfl <;> assumption
    simp only [mem_tripleList] at h1 h2 h3 hv0 hv0'
    have hd : ∀ v < 12, n.dot (edgePos τ (slotEdge P v)) - (c + n.dot (toVec P)) = n.dot (relPoint v (volT τ P v)) - c := by
      intro v hv
      rw [edgePos_slot τ P hv]
      simp only [Vec3.dot, Vec3.add]
      ring
    have hAB : ∀ v ∈ corners B, slotEdge P v ∈ (corners A).image (slotEdge P) ↔ v ∈ corners A := by
      intro v hv
      rw [Finset.mem_image]
      exact ⟨fun ⟨u, hu, e⟩ => slotEdge_inj (lA u hu) (lB v hv) e ▸ hu, fun h => ⟨v, h, rfl⟩⟩
    unfold MeetProperly
    rw [corners_lat, corners_lat]
    constructor
    · have hlt : ((corners A).image (slotEdge P) ∩ (corners B).image (slotEdge P)).card < ((corners B).image (slotEdge P)).card := by
        apply Finset.card_lt_card
        refine ⟨Finset.inter_subset_right, fun hsub => ?_⟩
        have := Finset.mem_inter.1 (hsub (Finset.mem_image_of_mem (slotEdge P) hv0))
        exact hv0' ((hAB v0 hv0).1 this.1)
      have h3' : ((corners B).image (slotEdge P)).card ≤ 3 := Finset.card_image_le.trans Finset.card_le_three
      omega
    · intro x hx hx'
      refine hull_separated n (c + n.dot (toVec P)) ?_ ?_ ?_ hx hx'
      · intro E hE
        obtain ⟨v, hv, rfl⟩ := Finset.mem_image.1 hE
        rw [hd v (lA v hv)]
        exact h1 v hv
      · intro E hE hE'
        obtain ⟨v, hv, rfl⟩ := Finset.mem_image.1 hE
        rw [hd v (lB v hv)]
        exact h2 v hv ((hAB v hv).1 hE')
      · intro E hE hE'
        obtain ⟨v, hv, rfl⟩ := Finset.mem_image.1 hE
        rw [hd v (lB v hv)]
        exact h3 v hv fun h => hE' ((hAB v hv).2 h)
  rintro A B hA hB ⟨n, c, h | h⟩
  · exact main A hA B hB n c h
  · exact Spec.MeetProperly.symm (main B hB A hA n c h)

/-! ### Different cells -/

theorem slot_bounds {P : IVec3} {i : Nat} (hi : i < 12) (a : Axis) :
    (slotEdge P i).at_.get a = P.get a ∨ ((slotEdge P i).axis ≠ a ∧ (slotEdge P i).at_.get a = P.get a + 1) := by
  obtain ⟨x, y, z⟩ := P
  interval_cases i <;> cases a <;>
    simp [slotEdge, slotAxis, slotOff, edgeCorner, kCellEdgeEndpoint, cornerPos, shift, IVec3.get]

theorem edgePos_get (τ : LEdge → K) (E : LEdge) (a : Axis) : (edgePos τ E).get a = (E.at_.get a : K) + (if E.axis = a then τ E else 0) := by
  obtain ⟨D, x, y, z⟩ := E
  cases D <;> cases a <;> simp [edgePos, Vec3.get, Vec3.set, toVec, IVec3.get]

/-- The edges belong to a cell. -/
def CellEdges (P : IVec3) (S : Finset LEdge) : Prop := ∀ E ∈ S, ∃ i < 12, E = slotEdge P i

/-- The edge lies in a lattice plane. -/
def OnPlane (a : Axis) (k : Int) (E : LEdge) : Prop := E.axis ≠ a ∧ E.at_.get a = k

instance (a : Axis) (k : Int) (E : LEdge) : Decidable (OnPlane a k E) := by unfold OnPlane; infer_instance

theorem edge_bounds (hτ : ∀ E, 0 < τ E ∧ τ E < 1) {P : IVec3} {i : Nat} (hi : i < 12) (a : Axis) :
    (P.get a : K) ≤ (edgePos τ (slotEdge P i)).get a ∧ (edgePos τ (slotEdge P i)).get a ≤ P.get a + 1 := by
  rw [edgePos_get]
  obtain ⟨h0, h1⟩ := hτ (slotEdge P i)
  rcases slot_bounds (P := P) hi a with h | ⟨h, h'⟩
  · rw [h]
    split_ifs <;> constructor <;> linarith
  · rw [if_neg h, h']
    push_cast
    constructor <;> linarith

def axisV (a : Axis) (y : K) : Vec3 K := (⟨0, 0, 0⟩ : Vec3 K).set a y

theorem axisV_dot (a : Axis) (y : K) (v : Vec3 K) : (axisV a y).dot v = y * v.get a := by
  cases a <;> simp [axisV, Vec3.set, Vec3.dot, Vec3.get]

theorem hull_bounds (hτ : ∀ E, 0 < τ E ∧ τ E < 1) {P : IVec3} {S : Finset LEdge} (hS : CellEdges P S) {x : Vec3 K}
    (h : Hull (edgePos τ) S x) (a : Axis) : (P.get a : K) ≤ x.get a ∧ x.get a ≤ P.get a + 1 := by
  obtain ⟨w, w0, w1, w2⟩ := h
  have e1 := hull_affine w1 w2 (axisV a 1) (P.get a : K)
  have e2 := hull_affine w1 w2 (axisV a (-1)) (-(P.get a + 1) : K)
  have n1 : 0 ≤ ∑ i ∈ S, w i * ((axisV a 1).dot (edgePos τ i) - (P.get a : K)) := by
    refine Finset.sum_nonneg fun E hE => mul_nonneg (w0 E hE) ?_
    obtain ⟨i, hi, rfl⟩ := hS E hE
    rw [axisV_dot]
    linarith [(edge_bounds hτ (P := P) hi a).1]
  have n2 : 0 ≤ ∑ i ∈ S, w i * ((axisV a (-1)).dot (edgePos τ i) - (-(P.get a + 1) : K)) := by
    refine Finset.sum_nonneg fun E hE => mul_nonneg (w0 E hE) ?_
    obtain ⟨i, hi, rfl⟩ := hS E hE
    rw [axisV_dot]
    linarith [(edge_bounds hτ (P := P) hi a).2]
  rw [e1, axisV_dot] at n1
  rw [e2, axisV_dot] at n2
  constructor <;> linarith

/-- A point on a face plane of the cell is in the hull of the vertices in that plane. -/
theorem hull_plane (hτ : ∀ E, 0 < τ E ∧ τ E < 1) {P : IVec3} {S : Finset LEdge} (hS : CellEdges P S) {x : Vec3 K}
    (h : Hull (edgePos τ) S x) {a : Axis} {k : Int} (hk : k = P.get a ∨ k = P.get a + 1) (hx : x.get a = (k : K)) :
    Hull (edgePos τ) (S.filter (OnPlane a k)) x := by
  have hon : ∀ E, (edgePos τ E).get a = (k : K) → OnPlane a k E := by
    intro E e
    rw [edgePos_get] at e
    obtain ⟨h0, h1⟩ := hτ E
    by_cases hE : E.axis = a
    · rw [if_pos hE] at e
      have e1 : ((E.at_.get a : Int) : K) < k := by linarith
      have e2 : (k : K) < ((E.at_.get a + 1 : Int) : K) := by push_cast; linarith
      have e1' : E.at_.get a < k := by exact_mod_cast e1
      have e2' : k < E.at_.get a + 1 := by exact_mod_cast e2
      omega
    · rw [if_neg hE, add_zero] at e
      exact ⟨hE, by exact_mod_cast e⟩
  rcases hk with hk | hk
  · refine (hull_face (axisV a 1) (k : K) h (fun E hE => ?_) ?_).mono fun E hE => ?_
    · obtain ⟨i, hi, rfl⟩ := hS E hE
      rw [axisV_dot, hk]
      linarith [(edge_bounds hτ (P := P) hi a).1]
    · rw [axisV_dot, hx]; linarith
    · obtain ⟨h1, h2⟩ := Finset.mem_filter.1 hE
      refine Finset.mem_filter.2 ⟨h1, hon E ?_⟩
      rw [axisV_dot] at h2
      linarith
  · refine (hull_face (axisV a (-1)) (-k : K) h (fun E hE => ?_) ?_).mono fun E hE => ?_
    · obtain ⟨i, hi, rfl⟩ := hS E hE
      rw [axisV_dot, hk]
      push_cast
      linarith [(edge_bounds hτ (P := P) hi a).2]
    · rw [axisV_dot, hx]; linarith
    · obtain ⟨h1, h2⟩ := Finset.mem_filter.1 hE
      refine Finset.mem_filter.2 ⟨h1, hon E ?_⟩
      rw [axisV_dot] at h2
      linarith

theorem CellEdges.filter {P : IVec3} {S : Finset LEdge} (h : CellEdges P S) (p : LEdge → Prop) [DecidablePred p] : CellEdges P (S.filter p) :=
  fun E hE => h E (Finset.mem_of_mem_filter E hE)

/-- Edges of one cell with the same direction and the same place in the orthogonal plane are equal. -/
theorem edge_eq {P : IVec3} {i j : Nat} (hi : i < 12) (hj : j < 12) {a b c : Axis} (hab : a ≠ b) (hac : a ≠ c) (hbc : b ≠ c) {k l : Int}
    (h1 : OnPlane a k (slotEdge P i)) (h2 : OnPlane b l (slotEdge P i)) (h3 : OnPlane a k (slotEdge P j)) (h4 : OnPlane b l (slotEdge P j)) :
    slotEdge P i = slotEdge P j := by
  have ax : ∀ {E : LEdge}, OnPlane a k E → OnPlane b l E → E.axis = c := by
    intro E e1 e2
    have := e1.1
    have := e2.1
    generalize E.axis = D at *
    cases D <;> cases a <;> cases b <;> cases c <;> simp_all
  have c1 := slot_bounds (P := P) hi c
  have c2 := slot_bounds (P := P) hj c
  have x1 := ax h1 h2
  have x2 := ax h3 h4
  have d1 : (slotEdge P i).at_.get c = P.get c := c1.resolve_right fun h => h.1 x1
  have d2 : (slotEdge P j).at_.get c = P.get c := c2.resolve_right fun h => h.1 x2
  generalize slotEdge P i = E at *
  generalize slotEdge P j = F at *
  obtain ⟨D, x, y, z⟩ := E
  obtain ⟨D', x', y', z'⟩ := F
  have e1 := h1.2
  have e2 := h2.2
  have e3 := h3.2
  have e4 := h4.2
  dsimp only at x1 x2 e1 e2 e3 e4 d1 d2
  rw [LEdge.mk.injEq, IVec3.mk.injEq]
  refine ⟨x1.trans x2.symm, ?_⟩
  cases a <;> cases b <;> cases c <;> simp_all [IVec3.get]

theorem third_axis (a : Axis) : ∃ b c : Axis, a ≠ b ∧ a ≠ c ∧ b ≠ c := by
  cases a
  · exact ⟨.Y, .Z, by decide, by decide, by decide⟩
  · exact ⟨.X, .Z, by decide, by decide, by decide⟩
  · exact ⟨.X, .Y, by decide, by decide, by decide⟩

/-- A vertex in the hull of vertices of its cell is one of them. -/
theorem vertex_in (hτ : ∀ E, 0 < τ E ∧ τ E < 1) {P : IVec3} {S : Finset LEdge} (hS : CellEdges P S) {i : Nat} (hi : i < 12)
    (h : Hull (edgePos τ) S (edgePos τ (slotEdge P i))) : slotEdge P i ∈ S := by
  obtain ⟨a, b, h1, h2, h3⟩ := third_axis (slotEdge P i).axis
  have hk : ∀ d, d ≠ (slotEdge P i).axis → ((slotEdge P i).at_.get d = P.get d ∨ (slotEdge P i).at_.get d = P.get d + 1) ∧
      (edgePos τ (slotEdge P i)).get d = (((slotEdge P i).at_.get d : Int) : K) := by
    intro d hd
    refine ⟨(slot_bounds (P := P) hi d).imp_right fun h => h.2, ?_⟩
    rw [edgePos_get, if_neg (Ne.symm hd), add_zero]
  obtain ⟨ka, ea⟩ := hk a (Ne.symm h1)
  obtain ⟨kb, eb⟩ := hk b (Ne.symm h2)
  have f1 := hull_plane hτ hS h ka ea
  have f2 := hull_plane hτ (hS.filter _) f1 kb eb
  obtain ⟨E, hE⟩ := f2.nonempty
  obtain ⟨hE1, o2⟩ := Finset.mem_filter.1 hE
  obtain ⟨hE2, o1⟩ := Finset.mem_filter.1 hE1
  obtain ⟨j, hj, rfl⟩ := hS E hE2
  have := edge_eq (P := P) hi hj h3 (Ne.symm h1) (Ne.symm h2) (k := (slotEdge P i).at_.get a) (l := (slotEdge P i).at_.get b)
    ⟨h1, rfl⟩ ⟨h2, rfl⟩ o1 o2
  rw [this]
  exact hE2

/-- Where two different cells meet. -/
theorem diff_axis (hτ : ∀ E, 0 < τ E ∧ τ E < 1) {P Q : IVec3} {S T : Finset LEdge} (hS : CellEdges P S) (hT : CellEdges Q T) {x : Vec3 K}
    (h : Hull (edgePos τ) S x) (h' : Hull (edgePos τ) T x) {a : Axis} (hne : P.get a ≠ Q.get a) :
    ∃ k : Int, (k = P.get a ∨ k = P.get a + 1) ∧ (k = Q.get a ∨ k = Q.get a + 1) ∧ x.get a = (k : K) ∧
      (k = P.get a + 1 → k = Q.get a) ∧ (k = P.get a → k = Q.get a + 1) := by
  obtain ⟨p1, p2⟩ := hull_bounds hτ hS h a
  obtain ⟨q1, q2⟩ := hull_bounds hτ hT h' a
  rcases lt_or_gt_of_ne hne with hl | hl
  · have hle : Q.get a ≤ P.get a + 1 := by
      have : ((Q.get a : Int) : K) ≤ ((P.get a + 1 : Int) : K) := by push_cast; linarith
      exact_mod_cast this
    have e : Q.get a = P.get a + 1 := by omega
    refine ⟨Q.get a, Or.inr e, Or.inl rfl, le_antisymm ?_ q1, fun _ => rfl, fun h => by omega⟩
    rw [e]; push_cast; exact p2
  · have hle : P.get a ≤ Q.get a + 1 := by
      have : ((P.get a : Int) : K) ≤ ((Q.get a + 1 : Int) : K) := by push_cast; linarith
      exact_mod_cast this
    have e : P.get a = Q.get a + 1 := by omega
    refine ⟨P.get a, Or.inl rfl, Or.inr e, le_antisymm ?_ p1, fun h => by omega, fun _ => e⟩
    rw [e]; push_cast; exact q2

/-- Cells that differ along two axes have at most one edge in common. -/
theorem meet_edge (hτ : ∀ E, 0 < τ E ∧ τ E < 1) {P Q : IVec3} {S T : Finset LEdge} (hS : CellEdges P S) (hT : CellEdges Q T) {x : Vec3 K}
    (h : Hull (edgePos τ) S x) (h' : Hull (edgePos τ) T x) {a b c : Axis} (hab : a ≠ b) (hac : a ≠ c) (hbc : b ≠ c)
    (ha : P.get a ≠ Q.get a) (hb : P.get b ≠ Q.get b) : Hull (edgePos τ) (S ∩ T) x := by
  obtain ⟨k, k1, k2, kx, -⟩ := diff_axis hτ hS hT h h' ha
  obtain ⟨l, l1, l2, lx, -⟩ := diff_axis hτ hS hT h h' hb
  have s1 := hull_plane hτ hS h k1 kx
  have s2 := hull_plane hτ (hS.filter _) s1 l1 lx
  have t1 := hull_plane hτ hT h' k2 kx
  have t2 := hull_plane hτ (hT.filter _) t1 l2 lx
  by_cases hc : P.get c = Q.get c
  · refine s2.mono fun E hE => ?_
    obtain ⟨F, hF⟩ := t2.nonempty
    obtain ⟨hE1, o2⟩ := Finset.mem_filter.1 hE
    obtain ⟨hE2, o1⟩ := Finset.mem_filter.1 hE1
    obtain ⟨hF1, u2⟩ := Finset.mem_filter.1 hF
    obtain ⟨hF2, u1⟩ := Finset.mem_filter.1 hF1
    have ax : ∀ {E : LEdge}, OnPlane a k E → OnPlane b l E → E.axis = c := by
      intro E e1 e2
      have := e1.1
      have := e2.1
      generalize E.axis = D at *
      cases D <;> cases a <;> cases b <;> cases c <;> simp_all
    have x1 := ax o1 o2
    have x2 := ax u1 u2
    have d1 : E.at_.get c = P.get c := by
      obtain ⟨i, hi, rfl⟩ := hS E hE2
      exact (slot_bounds hi c).resolve_right fun h => h.1 x1
    have d2 : F.at_.get c = Q.get c := by
      obtain ⟨i, hi, rfl⟩ := hT F hF2
      exact (slot_bounds hi c).resolve_right fun h => h.1 x2
    have : E = F := by
      obtain ⟨D, x, y, z⟩ := E
      obtain ⟨D', x', y', z'⟩ := F
      have e1 := o1.2
      have e2 := o2.2
      have e3 := u1.2
      have e4 := u2.2
      dsimp only at x1 x2 e1 e2 e3 e4 d1 d2
      rw [LEdge.mk.injEq, IVec3.mk.injEq]
      refine ⟨x1.trans x2.symm, ?_⟩
      clear s1 s2 t1 t2 hE hF hE1 hF1 hE2 hF2 o1 o2 u1 u2 ax k1 k2 l1 l2 kx lx ha hb h h' hS hT
      cases a <;> cases b <;> cases c <;> simp_all [IVec3.get]
    exact Finset.mem_inter.2 ⟨hE2, this ▸ hF2⟩
  · obtain ⟨q, q1, -, qx, -⟩ := diff_axis hτ hS hT h h' hc
    obtain ⟨E, hE⟩ := (hull_plane hτ ((hS.filter _).filter _) s2 q1 qx).nonempty
    exfalso
    obtain ⟨hE0, o3⟩ := Finset.mem_filter.1 hE
    obtain ⟨hE1, o2⟩ := Finset.mem_filter.1 hE0
    obtain ⟨-, o1⟩ := Finset.mem_filter.1 hE1
    have e1 := o1.1
    have e2 := o2.1
    have e3 := o3.1
    generalize E.axis = D at *
    cases D <;> cases a <;> cases b <;> cases c <;> simp_all

/-! ### Cells with a common face -/

/-- No triangle lies in a face of its cell. -/
theorem not_in_face : ∀ m < 256, ∀ T ∈ mcTriangles m, ∀ f < 6, ¬ (inFace f T.1 = true ∧ inFace f T.2.1 = true ∧ inFace f T.2.2 = true) := by
  have key : ((List.range 256).all fun m => (mcTriangles m).all fun T => (List.range 6).all fun f =>
      !(inFace f T.1 && inFace f T.2.1 && inFace f T.2.2)) = true := by decide +kernel
  intro m hm T hT f hf h
  have := List.all_eq_true.1 (List.all_eq_true.1 (List.all_eq_true.1 key m (List.mem_range.2 hm)) T hT) f (List.mem_range.2 hf)
  simp [h] at this

theorem inFace_iff (P : IVec3) (f i : Nat) : inFace f i = true ↔ OnPlane (faceAxis f) (P.get (faceAxis f) + faceSide f) (slotEdge P i) := by
  unfold inFace OnPlane slotEdge
  rw [Bool.and_eq_true, decide_eq_true_eq, decide_eq_true_eq]
  refine and_congr Iff.rfl ?_
  obtain ⟨x, y, z⟩ := P
  cases faceAxis f <;> simp [shift, IVec3.get]

theorem cellEdges_lat {P : IVec3} {A : Nat × Nat × Nat} (hA : A ∈ mcTriangles (latMask s P)) :
    CellEdges P (corners (slotEdge P A.1, slotEdge P A.2.1, slotEdge P A.2.2)) := by
  obtain ⟨l1, l2, l3⟩ := tri_lt (latMask_lt s P) hA
  intro E hE
  rcases mem_corners.1 hE with rfl | rfl | rfl
  · exact ⟨_, l1, rfl⟩
  · exact ⟨_, l2, rfl⟩
  · exact ⟨_, l3, rfl⟩

theorem acrossFace_get (P : IVec3) {f : Nat} (hf : f < 6) (a : Axis) :
    (acrossFace P f).get a = P.get a + (if a = faceAxis f then 2 * faceSide f - 1 else 0) := by
  obtain ⟨x, y, z⟩ := P
  interval_cases f <;> cases a <;> simp [acrossFace, faceDir, faceAxis, faceSide, shift, IVec3.get]

/-- The vertices of a triangle in a face: one, or the two of a side. -/
theorem face_vertices {m : Nat} (hm : m < 256) {B : Nat × Nat × Nat} (hB : B ∈ mcTriangles m) {f : Nat} (hf : f < 6) :
    (∃ j, ∀ i ∈ corners B, inFace f i = true → i = j) ∨
    ∃ j j', (j, j') ∈ sides (mcTriangles m) ∧ j ∈ corners B ∧ j' ∈ corners B ∧ inFace f j = true ∧ inFace f j' = true ∧
      ∀ i ∈ corners B, inFace f i = true → i = j ∨ i = j' := by
  have hn := not_in_face m hm B hB f hf
  have hside : ∀ q, q = (B.1, B.2.1) ∨ q = (B.2.1, B.2.2) ∨ q = (B.2.2, B.1) → q ∈ sides (mcTriangles m) := by
    intro q hq
    unfold sides
    refine List.mem_flatMap.2 ⟨B, hB, ?_⟩
    simpa using hq
  simp only [mem_corners]
  by_cases h1 : inFace f B.1 = true <;> by_cases h2 : inFace f B.2.1 = true <;> by_cases h3 : inFace f B.2.2 = true
  · exact absurd ⟨h1, h2, h3⟩ hn
  · refine Or.inr ⟨B.1, B.2.1, hside _ (by simp), by simp, by simp, h1, h2, ?_⟩
    rintro i (rfl | rfl | rfl) hi
    · exact Or.inl rfl
    · exact Or.inr rfl
    · exact absurd hi h3
  · refine Or.inr ⟨B.2.2, B.1, hside _ (by simp), by simp, by simp, h3, h1, ?_⟩
    rintro i (rfl | rfl | rfl) hi
    · exact Or.inr rfl
    · exact absurd hi h2
    · exact Or.inl rfl
  · refine Or.inl ⟨B.1, ?_⟩
    rintro i (rfl | rfl | rfl) hi
    · rfl
    · exact absurd hi h2
    · exact absurd hi h3
  · refine Or.inr ⟨B.2.1, B.2.2, hside _ (by simp), by simp, by simp, h2, h3, ?_⟩
    rintro i (rfl | rfl | rfl) hi
    · exact absurd hi h1
    · exact Or.inl rfl
    · exact Or.inr rfl
  · refine Or.inl ⟨B.2.1, ?_⟩
    rintro i (rfl | rfl | rfl) hi
    · exact absurd hi h1
    · rfl
    · exact absurd hi h3
  · refine Or.inl ⟨B.2.2, ?_⟩
    rintro i (rfl | rfl | rfl) hi
    · exact absurd hi h1
    · exact absurd hi h2
    · rfl
  · refine Or.inl ⟨B.2.2, ?_⟩
    rintro i (rfl | rfl | rfl) hi
    · exact absurd hi h1
    · exact absurd hi h2
    · rfl

/-- Triangles of cells with a common face. -/
theorem meet_face (hτ : ∀ E, 0 < τ E ∧ τ E < 1) {P : IVec3} {f : Nat} (hf : f < 6) {A B : Nat × Nat × Nat}
    (hA : A ∈ mcTriangles (latMask s P)) (hB : B ∈ mcTriangles (latMask s (acrossFace P f))) {x : Vec3 K}
    (h : Hull (edgePos τ) (corners (slotEdge P A.1, slotEdge P A.2.1, slotEdge P A.2.2)) x)
    (h' : Hull (edgePos τ) (corners (slotEdge (acrossFace P f) B.1, slotEdge (acrossFace P f) B.2.1, slotEdge (acrossFace P f) B.2.2)) x) :
    Hull (edgePos τ) (corners (slotEdge P A.1, slotEdge P A.2.1, slotEdge P A.2.2) ∩
      corners (slotEdge (acrossFace P f) B.1, slotEdge (acrossFace P f) B.2.1, slotEdge (acrossFace P f) B.2.2)) x := by
  obtain ⟨Q, hQ⟩ : ∃ Q, acrossFace P f = Q := ⟨_, rfl⟩
  have hback : acrossFace Q (oppFace f) = P := by rw [← hQ]; exact acrossFace_acrossFace P hf
  have hfs : faceSide f = 0 ∨ faceSide f = 1 := by unfold faceSide; omega
  have hof : oppFace f < 6 ∧ faceAxis (oppFace f) = faceAxis f ∧ faceSide (oppFace f) = 1 - faceSide f := by
    interval_cases f <;> decide
  have hQa : Q.get (faceAxis f) = P.get (faceAxis f) + (2 * faceSide f - 1) := by
    rw [← hQ, acrossFace_get P hf, if_pos rfl]
  rw [hQ] at hB h' ⊢
  have cA := cellEdges_lat hA
  have cB := cellEdges_lat hB
  obtain ⟨k, k1, k2, kx, k3, k4⟩ := diff_axis hτ cA cB h h' (a := faceAxis f) (by omega)
  have hkP : k = P.get (faceAxis f) + faceSide f := by omega
  have hkQ : k = Q.get (faceAxis f) + faceSide (oppFace f) := by rw [hof.2.2]; omega
  have fB := hull_plane hτ cB h' k2 kx
  have hslot : ∀ j < 12, inFace (oppFace f) j = true → oppSlot (oppFace f) j < 12 ∧ slotEdge Q j = slotEdge P (oppSlot (oppFace f) j) ∧
      inFace f (oppSlot (oppFace f) j) = true := by
    intro j hj hjf
    obtain ⟨e1, e2, -⟩ := opp_table _ hof.1 j hj hjf
    have e3 := slotEdge_across (P := Q) hof.1 hj hjf
    rw [hback] at e3
    refine ⟨e1, e3.symm, ?_⟩
    rw [inFace_iff P, e3, ← hkP, hkQ, ← hof.2.1, ← inFace_iff]
    exact hjf
  have lB : ∀ j ∈ corners B, j < 12 := by
    obtain ⟨l1, l2, l3⟩ := tri_lt (latMask_lt s Q) hB
    intro v hv
    rcases mem_corners.1 hv with rfl | rfl | rfl <;> assumption
  have hmemB : ∀ E ∈ (corners (slotEdge Q B.1, slotEdge Q B.2.1, slotEdge Q B.2.2)).filter (OnPlane (faceAxis f) k),
      ∃ j ∈ corners B, inFace (oppFace f) j = true ∧ E = slotEdge Q j := by
    intro E hE
    obtain ⟨hE, ho⟩ := Finset.mem_filter.1 hE
    rw [corners_lat] at hE
    obtain ⟨j, hj, rfl⟩ := Finset.mem_image.1 hE
    refine ⟨j, hj, ?_, rfl⟩
    rw [inFace_iff Q, hof.2.1, ← hkQ]
    exact ho
  have hinB : ∀ j ∈ corners B, slotEdge Q j ∈ corners (slotEdge Q B.1, slotEdge Q B.2.1, slotEdge Q B.2.2) := by
    intro j hj
    rw [corners_lat]
    exact Finset.mem_image_of_mem _ hj
  rcases face_vertices (latMask_lt s Q) hB hof.1 with ⟨j0, h1⟩ | ⟨j, j', hs, hjB, hjB', hj, hj', h2⟩
  · obtain ⟨E, hE⟩ := fB.nonempty
    obtain ⟨j, hj, hjf, rfl⟩ := hmemB E hE
    have hsub : (corners (slotEdge Q B.1, slotEdge Q B.2.1, slotEdge Q B.2.2)).filter (OnPlane (faceAxis f) k) ⊆ {slotEdge Q j} := by
      intro F hF
      obtain ⟨i, hi, hif, rfl⟩ := hmemB F hF
      rw [h1 i hi hif, h1 j hj hjf]
      exact Finset.mem_singleton_self _
    have h1x := fB.mono hsub
    have hx := hull_single h1x
    obtain ⟨e1, e2, -⟩ := hslot j (lB j hj) hjf
    rw [hx, e2] at h
    have hmem := vertex_in hτ cA e1 h
    refine h1x.mono fun F hF => ?_
    rw [Finset.mem_singleton] at hF
    subst hF
    exact Finset.mem_inter.2 ⟨e2 ▸ hmem, hinB j hj⟩
  · obtain ⟨e1, e2, e3⟩ := hslot j (lB j hjB) hj
    obtain ⟨e1', e2', e3'⟩ := hslot j' (lB j' hjB') hj'
    have hsP := lat_across_sides (P := Q) hof.1 hs hj hj'
    rw [hback] at hsP
    unfold sides at hsP
    obtain ⟨T, hT, hq⟩ := List.mem_flatMap.1 hsP
    have hTc : oppSlot (oppFace f) j ∈ corners T ∧ oppSlot (oppFace f) j' ∈ corners T ∧ oppSlot (oppFace f) j ≠ oppSlot (oppFace f) j' := by
      have hne := (sides_table (latMask_lt s P) hsP).2.2.1
      simp only [List.mem_cons, List.not_mem_nil, or_false, Prod.mk.injEq] at hq
      rw [mem_corners, mem_corners]
      refine ⟨?_, ?_, fun e => hne e.symm⟩ <;> rcases hq with ⟨a, b⟩ | ⟨a, b⟩ | ⟨a, b⟩ <;> simp [a, b]
    have hfB2 : (corners (slotEdge Q B.1, slotEdge Q B.2.1, slotEdge Q B.2.2)).filter (OnPlane (faceAxis f) k) ⊆
        {slotEdge Q j, slotEdge Q j'} := by
      intro F hF
      obtain ⟨i, hi, hif, rfl⟩ := hmemB F hF
      rcases h2 i hi hif with rfl | rfl <;> simp
    have h2x := fB.mono hfB2
    have hsubT : ({slotEdge Q j, slotEdge Q j'} : Finset LEdge) ⊆ corners (slotEdge P T.1, slotEdge P T.2.1, slotEdge P T.2.2) := by
      intro F hF
      rw [corners_lat, Finset.mem_image]
      simp only [Finset.mem_insert, Finset.mem_singleton] at hF
      rcases hF with rfl | rfl
      · exact ⟨_, hTc.1, e2.symm⟩
      · exact ⟨_, hTc.2.1, e2'.symm⟩
    have hTx := h2x.mono hsubT
    by_cases hAT : (slotEdge P A.1, slotEdge P A.2.1, slotEdge P A.2.2) = (slotEdge P T.1, slotEdge P T.2.1, slotEdge P T.2.2)
    · refine h2x.mono fun F hF => Finset.mem_inter.2 ⟨hAT ▸ hsubT hF, ?_⟩
      simp only [Finset.mem_insert, Finset.mem_singleton] at hF
      rcases hF with rfl | rfl
      · exact hinB j hjB
      · exact hinB j' hjB'
    · haveI : Std.Symm (MeetProperly (ι := LEdge) (edgePos τ)) := ⟨fun _ _ hh => Spec.MeetProperly.symm hh⟩
      have hmeet := (lat_same_cell (s := s) hτ P).forall
        (List.mem_map.2 ⟨A, hA, rfl⟩) (List.mem_map.2 ⟨T, hT, rfl⟩) hAT
      have hint := hmeet.2 x h hTx
      have cI : CellEdges P (corners (slotEdge P A.1, slotEdge P A.2.1, slotEdge P A.2.2) ∩
          corners (slotEdge P T.1, slotEdge P T.2.1, slotEdge P T.2.2)) := fun E hE => cA E (Finset.mem_inter.1 hE).1
      refine (hull_plane hτ cI hint k1 kx).mono fun E hE => ?_
      obtain ⟨hE, ho⟩ := Finset.mem_filter.1 hE
      obtain ⟨hEA, hET⟩ := Finset.mem_inter.1 hE
      refine Finset.mem_inter.2 ⟨hEA, ?_⟩
      rw [corners_lat] at hET
      obtain ⟨i, hi, rfl⟩ := Finset.mem_image.1 hET
      have hif : inFace f i = true := by
        rw [inFace_iff P, ← hkP]
        exact ho
      have hor : i = oppSlot (oppFace f) j ∨ i = oppSlot (oppFace f) j' := by
        by_contra hc
        push Not at hc
        apply not_in_face _ (latMask_lt s P) T hT f hf
        have c1 := mem_corners.1 hi
        have c2 := mem_corners.1 hTc.1
        have c3 := mem_corners.1 hTc.2.1
        have hne := hTc.2.2
        have all : ∀ v, v = T.1 ∨ v = T.2.1 ∨ v = T.2.2 → inFace f v = true := by
          have h3 : ∀ v, v = T.1 ∨ v = T.2.1 ∨ v = T.2.2 → v = i ∨ v = oppSlot (oppFace f) j ∨ v = oppSlot (oppFace f) j' := by
            intro v hv
            obtain ⟨n1, n2⟩ := hc
            omega
          intro v hv
          rcases h3 v hv with rfl | rfl | rfl
          · exact hif
          · exact e3
          · exact e3'
        exact ⟨all _ (by simp), all _ (by simp), all _ (by simp)⟩
      rcases hor with rfl | rfl
      · rw [← e2]; exact hinB j hjB
      · rw [← e2']; exact hinB j' hjB'

/-- Triangles of different cells meet properly. -/
theorem lat_cells (hτ : ∀ E, 0 < τ E ∧ τ E < 1) {P Q : IVec3} (hne : P ≠ Q) :
    ∀ t ∈ latTriangles s P, ∀ u ∈ latTriangles s Q, MeetProperly (edgePos τ) t u := by
  intro t ht u hu
  obtain ⟨A, hA, rfl⟩ := List.mem_map.1 ht
  obtain ⟨B, hB, rfl⟩ := List.mem_map.1 hu
  have cA := cellEdges_lat hA
  have cB := cellEdges_lat hB
  obtain ⟨a, ha⟩ : ∃ a, P.get a ≠ Q.get a := by
    by_contra hc
    push Not at hc
    apply hne
    obtain ⟨x, y, z⟩ := P
    obtain ⟨x', y', z'⟩ := Q
    have h1 := hc .X
    have h2 := hc .Y
    have h3 := hc .Z
    simp only [IVec3.get] at h1 h2 h3
    rw [h1, h2, h3]
  constructor
  · by_contra hcard
    have hsub : corners (slotEdge P A.1, slotEdge P A.2.1, slotEdge P A.2.2) ⊆
        corners (slotEdge P A.1, slotEdge P A.2.1, slotEdge P A.2.2) ∩ corners (slotEdge Q B.1, slotEdge Q B.2.1, slotEdge Q B.2.2) := by
      have h3 : (corners (slotEdge P A.1, slotEdge P A.2.1, slotEdge P A.2.2)).card ≤ 3 := Finset.card_le_three
      exact (Finset.eq_of_subset_of_card_le Finset.inter_subset_left (by omega)).symm.subset
    obtain ⟨f, hf, hfa, hfs⟩ : ∃ f < 6, faceAxis f = a ∧ faceSide f = if P.get a < Q.get a then 1 else 0 := by
      split_ifs
      · cases a
        · exact ⟨1, by decide⟩
        · exact ⟨3, by decide⟩
        · exact ⟨5, by decide⟩
      · cases a
        · exact ⟨0, by decide⟩
        · exact ⟨2, by decide⟩
        · exact ⟨4, by decide⟩
    have key : ∀ i < 12, slotEdge P i ∈ corners (slotEdge P A.1, slotEdge P A.2.1, slotEdge P A.2.2) → inFace f i = true := by
      intro i hi hm
      obtain ⟨j, hj, e⟩ := cB _ (Finset.mem_inter.1 (hsub hm)).2
      rw [inFace_iff P, hfa, hfs]
      have b1 := slot_bounds (P := P) hi a
      have b2 := slot_bounds (P := Q) hj a
      rw [← e] at b2
      unfold OnPlane
      split_ifs with hl
      · rcases b1 with b1 | b1
        · rcases b2 with b2 | b2 <;> omega
        · exact b1
      · rcases b2 with b2 | b2
        · rcases b1 with b1 | b1 <;> omega
        · refine ⟨b2.1, ?_⟩
          rcases b1 with b1 | b1
          · omega
          · omega
    obtain ⟨l1, l2, l3⟩ := tri_lt (latMask_lt s P) hA
    exact not_in_face _ (latMask_lt s P) A hA f hf ⟨key _ l1 (mem_corners.2 (Or.inl rfl)), key _ l2 (mem_corners.2 (Or.inr (Or.inl rfl))),
      key _ l3 (mem_corners.2 (Or.inr (Or.inr rfl)))⟩
  · intro x hx hx'
    obtain ⟨b, c, hab, hac, hbc⟩ := third_axis a
    by_cases hb : P.get b = Q.get b
    · by_cases hc : P.get c = Q.get c
      · obtain ⟨k, k1, k2, -, k3, k4⟩ := diff_axis hτ cA cB hx hx' ha
        obtain ⟨f, hf, hfa, hfs⟩ : ∃ f < 6, faceAxis f = a ∧ faceSide f = k - P.get a := by
          rcases k1 with k1 | k1
          · rw [k1, sub_self]
            cases a
            · exact ⟨0, by decide⟩
            · exact ⟨2, by decide⟩
            · exact ⟨4, by decide⟩
          · rw [k1, add_sub_cancel_left]
            cases a
            · exact ⟨1, by decide⟩
            · exact ⟨3, by decide⟩
            · exact ⟨5, by decide⟩
        have hQ : Q = acrossFace P f := by
          have hg : ∀ d, Q.get d = (acrossFace P f).get d := by
            intro d
            rw [acrossFace_get P hf, hfa, hfs]
            by_cases hd : d = a
            · subst hd
              rw [if_pos rfl]
              rcases k1 with k1 | k1
              · have := k4 k1
                omega
              · have := k3 k1
                omega
            · rw [if_neg hd, add_zero]
              have : d = b ∨ d = c := by
                clear hfa hfs k1 k2 k3 k4 ha hb hc hx hx' cA cB
                cases d <;> cases a <;> cases b <;> cases c <;> simp_all
              rcases this with rfl | rfl
              · exact hb.symm
              · exact hc.symm
          generalize acrossFace P f = R at hg
          obtain ⟨x, y, z⟩ := Q
          obtain ⟨x', y', z'⟩ := R
          have h1 := hg .X
          have h2 := hg .Y
          have h3 := hg .Z
          simp only [IVec3.get] at h1 h2 h3
          rw [h1, h2, h3]
        subst hQ
        exact meet_face hτ hf hA hB hx hx'
      · exact meet_edge hτ cA cB hx hx' hac hab (Ne.symm hbc) ha hc
    · exact meet_edge hτ cA cB hx hx' hab hac hbc ha hb

/-- The vertices on different edges are different points. -/
theorem edgePos_inj (hτ : ∀ E, 0 < τ E ∧ τ E < 1) {E F : LEdge} (h : edgePos τ E = edgePos τ F) : E = F := by
  have key : ∀ a, E.at_.get a = F.at_.get a ∧ (E.axis = a ↔ F.axis = a) := by
    intro a
    have e := congrArg (fun v => Vec3.get v a) h
    simp only [edgePos_get] at e
    obtain ⟨e0, e1⟩ := hτ E
    obtain ⟨f0, f1⟩ := hτ F
    have lt1 : ((E.at_.get a : Int) : K) < ((F.at_.get a + 1 : Int) : K) := by
      push_cast
      split_ifs at e <;> linarith
    have lt2 : ((F.at_.get a : Int) : K) < ((E.at_.get a + 1 : Int) : K) := by
      push_cast
      split_ifs at e <;> linarith
    have l1 : E.at_.get a < F.at_.get a + 1 := by exact_mod_cast lt1
    have l2 : F.at_.get a < E.at_.get a + 1 := by exact_mod_cast lt2
    have heq : E.at_.get a = F.at_.get a := by omega
    refine ⟨heq, ?_⟩
    rw [heq] at e
    by_cases hE : E.axis = a <;> by_cases hF : F.axis = a <;> simp only [hE, hF, if_true, if_false] at e ⊢
    · linarith
    · linarith
  have hx := (key .X).1
  have hy := (key .Y).1
  have hz := (key .Z).1
  have ha := (key E.axis).2.1 rfl
  obtain ⟨D, x, y, z⟩ := E
  obtain ⟨D', x', y', z'⟩ := F
  simp only [IVec3.get] at hx hy hz
  dsimp only at ha
  rw [hx, hy, hz, ha]

end Isomesh
