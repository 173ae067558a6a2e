import Verif.Proofs.DmcClosed

/-! C62: the mesh on the dual grid is closed apart from the boundary of the root cube. -/

namespace Isomesh
open Spec

set_option linter.unusedSectionVars false
variable {K : Type} [Add K] [_root_.Sub K] [Mul K] [Div K] [Neg K] [Zero K] [One K] [OfNat K 2] [OfScientific K] [NatCast K] [IntCast K]
  [Fabs K] [Elem K] [LinearOrder K] [RoundedLaws K]

noncomputable section
open scoped Classical

/-- The lattice points inside a cube. -/
def innerPoints (c : Cube) : Finset IVec3 := (cubeCells c).filter fun p => ∀ a : Axis, c.lo.get a < p.get a

theorem mem_innerPoints {c : Cube} {p : IVec3} :
    p ∈ innerPoints c ↔ ∀ a : Axis, c.lo.get a < p.get a ∧ p.get a < c.lo.get a + c.side := by
  unfold innerPoints
  rw [Finset.mem_filter, mem_cubeCells, cubeHas_iff]
  constructor
  · intro h a; exact ⟨h.2 a, (h.1 a).2⟩
  · intro h; exact ⟨fun a => ⟨(h a).1.le, (h a).2⟩, fun a => (h a).1⟩

theorem octOff_corner : ∀ i < 8, octOff (Fin.ofNat 8 i) = cornerPos i := by decide

theorem inner_cell {c : Cube} {p : IVec3} (hp : p ∈ innerPoints c) (i : Fin 8) : c.Has (vertCorner p 1 i) := by
  rw [mem_innerPoints] at hp
  rw [cubeHas_iff]
  intro a
  have := hp a
  rw [vertCorner_get]
  rcases octOff_01 i a with e | e <;> rw [e] <;> omega

variable {t : DmcNode K} {c : Cube}

theorem minimal_inner (hh : t.height ≤ c.k) {p : IVec3} {q : Fin 8 → DmcCell K} (h : MinimalVertex t c p q) :
    p ∈ innerPoints c ∧ dualCell t c p = q := by
  constructor
  · rw [mem_innerPoints]
    intro a
    have hp := placed_locate t c hh
    have h0 := cubeHas_iff.1 (h.contains 0) a
    have h7 := cubeHas_iff.1 (h.contains 7) a
    have s0 := cubeSub_iff.1 (leaf_sub hp _ (h.leaf 0)) a
    have s7 := cubeSub_iff.1 (leaf_sub hp _ (h.leaf 7)) a
    have o0 : (octOff 0).get a = 0 := by cases a <;> rfl
    have o7 : (octOff 7).get a = 1 := by cases a <;> rfl
    rw [vertCorner_get, o0] at h0
    rw [vertCorner_get, o7] at h7
    omega
  · funext i
    exact leafAt_eq hh (h.leaf i) (h.contains i)

/-- The lower face along an axis. -/
def axisFace : Axis → Nat
  | .X => 0
  | .Y => 2
  | .Z => 4

theorem flip_next (D : Axis) : ∀ i < 8,
    (∀ a ∈ [Axis.X, .Y, .Z], (octOff (Fin.ofNat 8 (flipCorner (axisFace D) i))).get a =
      (octOff (Fin.ofNat 8 i)).get a + if a = D then 1 else 0) ∨
    (∀ a ∈ [Axis.X, .Y, .Z], (octOff (Fin.ofNat 8 i)).get a =
      (octOff (Fin.ofNat 8 (flipCorner (axisFace D) i))).get a + if a = D then 1 else 0) := by
  cases D <;> decide

theorem axis_mem (a : Axis) : a ∈ [Axis.X, .Y, .Z] := by cases a <;> simp

/-- An inner point is a corner of a leaf, or the dual cell there has no extent along some axis. -/
theorem inner_point (hh : t.height ≤ c.k) {p : IVec3} (hp : p ∈ innerPoints c) :
    (∃ q, MinimalVertex t c p q) ∨
      ∃ g < 6, ∀ i < 8, dualCell t c p (Fin.ofNat 8 (flipCorner g i)) = dualCell t c p (Fin.ofNat 8 i) := by
  have hpl := placed_locate t c hh
  obtain ⟨A, hA, hg, hc⟩ := cell_traceV dcTravOK (locate t c) c hpl (fun l hl => hl)
  have hin : inF cellF c.lo c.side (⟨2 * p.x, 2 * p.y, 2 * p.z⟩ : IVec3) := by
    rw [inF_iff]
    intro a
    have := mem_innerPoints.1 hp a
    cases a <;> simp only [axIn, cellF, IVec3.get, if_true] at this ⊢ <;> omega
  have heven : VertPt (⟨2 * p.x, 2 * p.y, 2 * p.z⟩ : IVec3) := by
    intro a; cases a <;> simp only [IVec3.get] <;> omega
  have hget : ∀ a : Axis, (⟨2 * p.x, 2 * p.y, 2 * p.z⟩ : IVec3).get a = 2 * p.get a := by intro a; cases a <;> rfl
  rcases (hc _ heven).2 hin with h1 | ⟨-, D, -, hf⟩
  · left
    obtain ⟨e, he, hcov⟩ := List.countP_pos_iff.1 (by omega : 0 < A.countP (VertEv.cov (⟨2 * p.x, 2 * p.y, 2 * p.z⟩ : IVec3)))
    have hep : e.p = p := by
      have := vcov_unique (e := ⟨p, e.q⟩) (e' := e) hcov
      exact this
    have := hg e he
    rw [← hep]
    exact ⟨e.q, this.leaf, this.contains, this.corner⟩
  · right
    refine ⟨axisFace D, by cases D <;> simp [axisFace], fun i hi => ?_⟩
    have touch : ∀ j, Touch (vertCorner p 1 j) (⟨2 * p.x, 2 * p.y, 2 * p.z⟩ : IVec3) := by
      intro j a
      rw [hget, vertCorner_get]
      rcases octOff_01 j a with e | e <;> rw [e] <;> omega
    have key : ∀ i j : Fin 8, (∀ a ∈ [Axis.X, .Y, .Z], (octOff j).get a = (octOff i).get a + if a = D then 1 else 0) →
        dualCell t c p j = dualCell t c p i := by
      intro i j hij
      have hn : vertCorner p 1 j = nextCell D (vertCorner p 1 i) := by
        refine ivec_ext fun a => ?_
        rw [nextCell_get, vertCorner_get, vertCorner_get, hij a (axis_mem a)]
        ring
      obtain ⟨l, hl, l1, l2⟩ := hf _ (touch i) (hn ▸ touch j)
      unfold dualCell
      rw [leafAt_eq hh hl l1, hn, leafAt_eq hh hl l2]
    rcases flip_next D i hi with h | h
    · exact key _ _ h
    · exact (key _ _ h).symm

/-- The point next to `p` beyond the face `f` of its dual cell. -/
def beyond (p : IVec3) (f : Nat) : IVec3 := ⟨p.x + (faceDir f).x, p.y + (faceDir f).y, p.z + (faceDir f).z⟩

theorem dir_opp : ∀ f < 6, (faceDir (oppFace f)).x = - (faceDir f).x ∧ (faceDir (oppFace f)).y = - (faceDir f).y ∧
    (faceDir (oppFace f)).z = - (faceDir f).z := by decide

theorem beyond_beyond {p : IVec3} {f : Nat} (hf : f < 6) : beyond (beyond p f) (oppFace f) = p := by
  obtain ⟨h1, h2, h3⟩ := dir_opp f hf
  unfold beyond
  rw [h1, h2, h3]
  cases p
  simp

theorem beyond_get : ∀ f < 6, ∀ (p : IVec3) (a : Axis), (beyond p f).get a = p.get a + if a = faceAxis f then 2 * faceSide f - 1 else 0 := by
  intro f hf p a
  have h6 : f = 0 ∨ f = 1 ∨ f = 2 ∨ f = 3 ∨ f = 4 ∨ f = 5 := by omega
  rcases h6 with rfl | rfl | rfl | rfl | rfl | rfl <;> cases a <;>
    simp [beyond, faceDir, faceAxis, faceSide, IVec3.get]

theorem dualCell_beyond {p : IVec3} {f : Nat} (hf : f < 6) : ∀ i < 8, (cornerPos i).get (faceAxis f) = faceSide f →
    dualCell t c (beyond p f) (Fin.ofNat 8 (flipCorner f i)) = dualCell t c p (Fin.ofNat 8 i) := by
  intro i hi hp
  obtain ⟨h1, -, -, -, h2, -⟩ := flip_table' f hf i hi
  obtain ⟨h3, h4, h5⟩ := h2 hp
  unfold dualCell
  congr 1
  have o1 := octOff_corner i hi
  have o2 := octOff_corner _ h1
  unfold vertCorner octCorner beyond
  rw [o1, o2]
  rw [IVec3.mk.injEq]
  refine ⟨?_, ?_, ?_⟩ <;> dsimp only <;> omega

/-- The sum over all inner points vanishes if the faces at the boundary contribute nothing. -/
theorem inner_sum {E : List (DmcCell K × DmcCell K)} {a b : Nat}
    (hb : ∀ p ∈ innerPoints c, ∀ f < 6, beyond p f ∉ innerPoints c →
      faceSum f (dualMask (dualCell t c p)) (dmcSideNet E (dualCell t c p) a b) = 0) :
    ∑ p ∈ innerPoints c, netSides (dualTriangles E (dualCell t c p)) a b = 0 := by
  have h1 : ∀ p ∈ innerPoints c, netSides (dualTriangles E (dualCell t c p)) a b =
      ∑ f ∈ Finset.range 6, faceSum f (dualMask (dualCell t c p)) (dmcSideNet E (dualCell t c p) a b) :=
    fun p _ => dualTriangles_net E _ a b
  rw [Finset.sum_congr rfl h1, ← Finset.sum_product']
  have h2 : ∑ x ∈ innerPoints c ×ˢ Finset.range 6,
      faceSum x.2 (dualMask (dualCell t c x.1)) (dmcSideNet E (dualCell t c x.1) a b) =
      ∑ x ∈ (innerPoints c ×ˢ Finset.range 6).filter (fun x => beyond x.1 x.2 ∈ innerPoints c),
        faceSum x.2 (dualMask (dualCell t c x.1)) (dmcSideNet E (dualCell t c x.1) a b) := by
    symm
    refine Finset.sum_subset (Finset.filter_subset _ _) ?_
    intro x hx hx'
    obtain ⟨m1, m2⟩ := Finset.mem_product.1 hx
    refine hb x.1 m1 x.2 (Finset.mem_range.1 m2) fun h => hx' (Finset.mem_filter.2 ⟨hx, h⟩)
  rw [h2]
  refine Finset.sum_involution (fun x _ => (beyond x.1 x.2, oppFace x.2)) ?_ ?_ ?_ ?_
  · intro x hx
    obtain ⟨hx, -⟩ := Finset.mem_filter.1 hx
    have hf := Finset.mem_range.1 (Finset.mem_product.1 hx).2
    have := face_opposite E (q := dualCell t c x.1) (q' := dualCell t c (beyond x.1 x.2)) hf (dualCell_beyond hf) a b
    dsimp only
    rw [this]
    ring
  · intro x hx _ he
    obtain ⟨hx, -⟩ := Finset.mem_filter.1 hx
    have hf := Finset.mem_range.1 (Finset.mem_product.1 hx).2
    have h : ∀ f < 6, oppFace f ≠ f := by decide
    exact h _ hf (Prod.ext_iff.1 he).2
  · intro x hx
    obtain ⟨hx, hb⟩ := Finset.mem_filter.1 hx
    obtain ⟨m1, m2⟩ := Finset.mem_product.1 hx
    have hf := Finset.mem_range.1 m2
    refine Finset.mem_filter.2 ⟨Finset.mem_product.2 ⟨hb, Finset.mem_range.2 (opp_face _ hf).1⟩, ?_⟩
    dsimp only
    rw [beyond_beyond hf]
    exact m1
  · intro x hx
    obtain ⟨hx, -⟩ := Finset.mem_filter.1 hx
    have hf := Finset.mem_range.1 (Finset.mem_product.1 hx).2
    exact Prod.ext (beyond_beyond hf) (opp_face _ hf).2

theorem visits_sum (hh : t.height ≤ c.k) {visits : List (IVec3 × (Fin 8 → DmcCell K))} (hnd : (visits.map (·.1)).Nodup)
    (hv : ∀ p q, (p, q) ∈ visits ↔ MinimalVertex t c p q) (E : List (DmcCell K × DmcCell K)) (a b : Nat) :
    netSides (visits.flatMap fun v => dualTriangles E v.2) a b =
      ∑ p ∈ innerPoints c, netSides (dualTriangles E (dualCell t c p)) a b := by
  rw [netSides_flatMap]
  have h1 : (visits.map fun v => netSides (dualTriangles E v.2) a b) =
      (visits.map (·.1)).map fun p => netSides (dualTriangles E (dualCell t c p)) a b := by
    rw [List.map_map]
    refine List.map_congr_left fun v hv' => ?_
    have := (minimal_inner hh ((hv v.1 v.2).1 hv')).2
    simp only [Function.comp]
    rw [this]
  rw [h1, ← List.sum_toFinset _ hnd]
  refine Finset.sum_subset ?_ ?_
  · intro p hp
    rw [List.mem_toFinset, List.mem_map] at hp
    obtain ⟨v, hv', rfl⟩ := hp
    exact (minimal_inner hh ((hv v.1 v.2).1 hv')).1
  · intro p hp hn
    rcases inner_point hh hp with ⟨q, hq⟩ | ⟨g, hg, hflat⟩
    · refine absurd ?_ hn
      rw [List.mem_toFinset, List.mem_map]
      exact ⟨(p, q), (hv p q).2 hq, rfl⟩
    · exact dmc_flat_cell hg hflat a b

theorem dualVertexId_found {E : List (DmcCell K × DmcCell K)} {q : Fin 8 → DmcCell K} {e : Nat}
    (h : dualVertexId E q e < E.length) : E[dualVertexId E q e]? = some (slotPair q e) := by
  unfold dualVertexId at h ⊢
  have := List.findIdx_getElem (w := h)
  simp only [decide_eq_true_eq] at this
  rw [List.getElem?_eq_getElem h, this]
  rfl

/-- A leaf with a cell at a side of the cube touches this side. -/
theorem touches_side (hh : t.height ≤ c.k) {p : IVec3} (hp : p ∈ innerPoints c) {f : Nat} (hf : f < 6) (hb : beyond p f ∉ innerPoints c)
    {i : Nat} (hi : i < 8) (hface : (cornerPos i).get (faceAxis f) = faceSide f) :
    (dualCell t c p (Fin.ofNat 8 i)).1.TouchesSide c (faceAxis f) (decide (faceSide f = 1)) := by
  obtain ⟨hm, hu⟩ := leafAt_mem hh (inner_cell hp (Fin.ofNat 8 i))
  have hsub := cubeSub_iff.1 (leaf_sub (placed_locate t c hh) _ hm) (faceAxis f)
  have hhas := cubeHas_iff.1 hu (faceAxis f)
  rw [vertCorner_get, octOff_corner i hi, hface] at hhas
  have hin := mem_innerPoints.1 hp
  have hout : ¬ (c.lo.get (faceAxis f) < p.get (faceAxis f) + (2 * faceSide f - 1) ∧
      p.get (faceAxis f) + (2 * faceSide f - 1) < c.lo.get (faceAxis f) + c.side) := by
    intro h
    apply hb
    rw [mem_innerPoints]
    intro a
    rw [beyond_get f hf]
    by_cases ha : a = faceAxis f
    · rw [if_pos ha, ha]; exact h
    · rw [if_neg ha, add_zero]; exact hin a
  have h01 : faceSide f = 0 ∨ faceSide f = 1 := by
    unfold faceSide
    omega
  have hf' := hin (faceAxis f)
  have e : dualCell t c p (Fin.ofNat 8 i) = leafAt t c (vertCorner p 1 (Fin.ofNat 8 i)) := rfl
  rw [e]
  unfold Cube.TouchesSide
  rcases h01 with h0 | h1
  · rw [if_neg (by rw [decide_eq_true_eq]; omega)]
    omega
  · rw [if_pos (by rw [decide_eq_true_eq]; omega)]
    omega

variable {normalize : Vec3 K → Vec3 K}

/-- Sides of a mesh on the dual grid. -/
theorem dmc_closed (hh : t.height ≤ c.k) {mesh : Mesh K} {E : List (DmcCell K × DmcCell K)} {visits : List (IVec3 × (Fin 8 → DmcCell K))}
    (h : DmcTopology t c mesh E visits) (a b : Nat) (ha : a < E.length) (hb : b < E.length) :
    netSides (triangles mesh.indices) a b = 0 ∨
      ∃ A A' B B' x top, E[a]? = some (A, A') ∧ E[b]? = some (B, B') ∧ A.1.TouchesSide c x top ∧ A'.1.TouchesSide c x top ∧
        B.1.TouchesSide c x top ∧ B'.1.TouchesSide c x top := by
  by_cases hex : ∃ p ∈ innerPoints c, ∃ f < 6, beyond p f ∉ innerPoints c ∧
      faceSum f (dualMask (dualCell t c p)) (dmcSideNet E (dualCell t c p) a b) ≠ 0
  · right
    obtain ⟨p, hp, f, hf, hbey, hne⟩ := hex
    obtain ⟨i, hi, j, hj, fi, fj, -, -, ea, eb⟩ := faceSum_ne hne
    have ia := dualVertexId_found (E := E) (q := dualCell t c p) (e := i) (by omega)
    have ib := dualVertexId_found (E := E) (q := dualCell t c p) (e := j) (by omega)
    rw [ea] at ia
    rw [eb] at ib
    have si := slot_table' f hf i hi fi
    have sj := slot_table' f hf j hj fj
    exact ⟨_, _, _, _, faceAxis f, decide (faceSide f = 1), ia, ib,
      touches_side hh hp hf hbey (si 0 (by omega)).2.1 (si 0 (by omega)).2.2,
      touches_side hh hp hf hbey (si 1 (by omega)).2.1 (si 1 (by omega)).2.2,
      touches_side hh hp hf hbey (sj 0 (by omega)).2.1 (sj 0 (by omega)).2.2,
      touches_side hh hp hf hbey (sj 1 (by omega)).2.1 (sj 1 (by omega)).2.2⟩
  · left
    push Not at hex
    have htri : triangles mesh.indices = visits.flatMap fun v => dualTriangles E v.2 := by
      rw [h.triangles]
      exact triangles_flatTri _
    rw [htri, visits_sum hh h.visits_nodup h.visits_iff, inner_sum]
    intro p hp f hf hbey
    exact hex p hp f hf hbey

/-- C62: in the mesh of `contour` every side from vertex `a` to vertex `b` occurs as often as the opposite side, unless the
leaves of both dual edges touch one and the same side of the root cube. -/
theorem C62_closed {o : DmcOctree K} {junk : Nat → Option Material} (hh : o.root.height ≤ c.k) (ha : DistinctAddresses o.root c)
    {r : PlacedMesh K} (hr : o.contour normalize junk = some r) :
    ∃ E visits, DmcTopology o.root c r.mesh E visits ∧ ∀ a b,
      (sides (triangles r.mesh.indices)).count (a, b) = (sides (triangles r.mesh.indices)).count (b, a) ∨
      ∃ A A' B B' x top, E[a]? = some (A, A') ∧ E[b]? = some (B, B') ∧ A.1.TouchesSide c x top ∧ A'.1.TouchesSide c x top ∧
        B.1.TouchesSide c x top ∧ B'.1.TouchesSide c x top := by
  obtain ⟨⟨E, visits, h⟩, -⟩ := C50_dmc_topology hh ha hr
  refine ⟨E, visits, h, fun a b => ?_⟩
  have hval := (C50_indices_valid hh ha hr).2
  have hmem : ∀ x y, (x, y) ∈ sides (triangles r.mesh.indices) → x < E.length ∧ y < E.length := by
    intro x y hxy
    unfold sides at hxy
    rw [List.mem_flatMap] at hxy
    obtain ⟨t, ht, hxy⟩ := hxy
    obtain ⟨v1, v2, v3, -⟩ := hval t ht
    rw [h.vertex_count] at v1 v2 v3
    simp only [List.mem_cons, List.not_mem_nil, or_false, Prod.mk.injEq] at hxy
    rcases hxy with ⟨rfl, rfl⟩ | ⟨rfl, rfl⟩ | ⟨rfl, rfl⟩ <;> exact ⟨by assumption, by assumption⟩
  by_cases hab : a < E.length ∧ b < E.length
  · rcases dmc_closed hh h a b hab.1 hab.2 with h0 | h1
    · left
      unfold netSides at h0
      omega
    · exact Or.inr h1
  · left
    rw [List.count_eq_zero_of_not_mem fun h' => hab (hmem _ _ h'), List.count_eq_zero_of_not_mem fun h' => hab (hmem _ _ h').symm]

/-- C62: if no two leaves touching the same side of the root cube are joined by a dual edge with a sign change, the mesh is
a closed surface: every side of a triangle is matched by an opposite side. -/
theorem C62_closed_surface {o : DmcOctree K} {junk : Nat → Option Material} (hh : o.root.height ≤ c.k)
    (ha : DistinctAddresses o.root c) {r : PlacedMesh K} (hr : o.contour normalize junk = some r)
    (hbd : ∀ A B x top, DualEdge o.root c A B → SignChange A.2 B.2 → A.1.TouchesSide c x top → ¬ B.1.TouchesSide c x top) (a b : Nat) :
    (sides (triangles r.mesh.indices)).count (a, b) = (sides (triangles r.mesh.indices)).count (b, a) := by
  obtain ⟨E, visits, h, hc⟩ := C62_closed hh ha hr
  rcases hc a b with h1 | ⟨A, A', B, B', x, top, e1, -, t1, t2, -⟩
  · exact h1
  · obtain ⟨d, s⟩ := (h.edges A A').1 (List.mem_of_getElem? e1)
    exact absurd t2 (hbd A A' x top d s t1)

end
end Isomesh
