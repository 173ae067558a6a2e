import Verif.Proofs.Embedded
import Verif.Props.ChunkVolume
import Verif.Props.Completeness

/-! C90: marching cubes meshes do not cut themselves. -/

namespace Isomesh
open Spec

variable {K : Type} [Field K] [LinearOrder K] [IsStrictOrderedRing K]

/-- Renaming vertices. -/
theorem meet_rename {ι κ : Type} [DecidableEq ι] [DecidableEq κ] {f : κ → ι} {t u : κ × κ × κ}
    (hf : ∀ i ∈ corners t ∪ corners u, ∀ j ∈ corners t ∪ corners u, f i = f j → i = j) {pos : ι → Vec3 K} {q : κ → Vec3 K}
    (hq : ∀ i ∈ corners t ∪ corners u, q i = pos (f i))
    (h : MeetProperly pos (f t.1, f t.2.1, f t.2.2) (f u.1, f u.2.1, f u.2.2)) : MeetProperly q t u := by
  have hc : ∀ t : κ × κ × κ, corners (f t.1, f t.2.1, f t.2.2) = (corners t).image f := by
    intro t
    ext E
    simp only [mem_corners, Finset.mem_image, or_and_right, exists_or, exists_eq_left]
    exact or_congr eq_comm (or_congr eq_comm eq_comm)
  have hI : (corners t).image f ∩ (corners u).image f = (corners t ∩ corners u).image f := by
    ext E
    simp only [Finset.mem_inter, Finset.mem_image]
    constructor
    · rintro ⟨⟨i, hi, rfl⟩, j, hj, e⟩
      have := hf j (Finset.mem_union_right _ hj) i (Finset.mem_union_left _ hi) e
      subst this
      exact ⟨j, ⟨hi, hj⟩, rfl⟩
    · rintro ⟨i, ⟨hi, hj⟩, rfl⟩
      exact ⟨⟨i, hi, rfl⟩, i, hj, rfl⟩
  have sub1 : corners t ⊆ corners t ∪ corners u := Finset.subset_union_left
  have sub2 : corners u ⊆ corners t ∪ corners u := Finset.subset_union_right
  have sub3 : corners t ∩ corners u ⊆ corners t ∪ corners u := fun i hi => sub1 (Finset.mem_inter.1 hi).1
  have him : ∀ S, S ⊆ corners t ∪ corners u → ∀ x, Hull q S x ↔ Hull pos (S.image f) x := fun S hS x =>
    hull_image (fun i hi j hj => hf i (hS hi) j (hS hj)) (fun i hi => hq i (hS hi))
  unfold MeetProperly at h ⊢
  rw [hc, hc, hI] at h
  constructor
  · rw [Finset.card_image_of_injOn fun i hi j hj e => hf i (sub3 hi) j (sub3 hj) e] at h
    exact h.1
  · intro x hx hx'
    rw [him _ sub1] at hx
    rw [him _ sub2] at hx'
    rw [him _ sub3]
    exact h.2 x hx hx'

/-- Offset of the surface on a lattice edge, in the middle if there is none. -/
def midTau (g : Grid K) (le : LEdge) : K :=
  match (edgeIdx g le).bind fun v => (edgeList g)[v]? with
  | some e => e.offset
  | none => 1 / 2

theorem midTau_strict {g : Grid K} (h : Filled g) (hoff : ∀ D, ∀ e ∈ g.edges D, 0 < e.offset ∧ e.offset < 1) (E : LEdge) :
    0 < midTau g E ∧ midTau g E < 1 := by
  unfold midTau
  split
  · rename_i e he
    obtain ⟨v, -, hv⟩ := Option.bind_eq_some_iff.1 he
    exact hoff _ e ((mem_edgeList h).1 (List.mem_of_getElem? hv))
  · constructor <;> norm_num

/-- The lattice edge of a mesh vertex. -/
def vertexEdge (g : Grid K) (v : Nat) : LEdge :=
  match (edgeList g)[v]? with
  | some e => .ofGridEdge e
  | none => ⟨.X, ⟨0, 0, 0⟩⟩

theorem vertexEdge_inj {g : Grid K} (h : Filled g) {i j : Nat} (hi : i < (edgeList g).length) (hj : j < (edgeList g).length)
    (e : vertexEdge g i = vertexEdge g j) : i = j := by
  have a1 := List.getElem?_eq_getElem hi
  have a2 := List.getElem?_eq_getElem hj
  unfold vertexEdge at e
  rw [a1, a2] at e
  have b1 := (edgeIdx_eq_some h).2 ⟨_, a1, rfl⟩
  have b2 := (edgeIdx_eq_some h).2 ⟨_, a2, rfl⟩
  dsimp only at e
  rw [e, b2, Option.some.injEq] at b1
  exact b1.symm

theorem surfacePoint_edgePos {g : Grid K} (h : Filled g) {v : Nat} {e : GridEdge K} (he : (edgeList g)[v]? = some e) :
    e.surfacePoint = edgePos (midTau g) (vertexEdge g v) := by
  have hE : vertexEdge g v = .ofGridEdge e := by unfold vertexEdge; rw [he]
  have ht : midTau g (.ofGridEdge e) = e.offset := by
    unfold midTau
    rw [(edgeIdx_eq_some h).2 ⟨e, he, rfl⟩, Option.bind_some, he]
  rw [hE]
  unfold edgePos
  rw [ht]
  unfold GridEdge.surfacePoint LEdge.ofGridEdge
  dsimp only
  cases e.axis <;> simp [toVec, Vec3.set, Vec3.get]

/-- C90: let a grid be consistent, with the surface strictly inside the crossed edges.  Its marching cubes mesh is an embedded surface: the vertices
are different points, no triangle is degenerate, and two triangles have nothing in common except common corners and sides. -/
theorem C90_embedded {g : Grid K} (h : Filled g) (hoff : ∀ D, ∀ e ∈ g.edges D, 0 < e.offset ∧ e.offset < 1) (nrm : Vec3 K → Vec3 K)
    {r : PlacedMesh K} (hr : marchingCubes nrm g = some r) : EmbeddedMesh r.mesh := by
  rw [mc_result h, Option.some.injEq] at hr
  subst hr
  dsimp only
  have hτ := midTau_strict h hoff
  have hpos : ∀ v < (edgeList g).length,
      vertexPos ⟨(edgeList g).map (mcVertex nrm), flatTri ((mcCells g).flatMap (cellTriangles g))⟩ v = edgePos (midTau g) (vertexEdge g v) := by
    intro v hv
    have a1 := List.getElem?_eq_getElem hv
    unfold vertexPos
    rw [List.getElem?_map, a1]
    exact surfacePoint_edgePos h a1
  have hvid : ∀ P i v, vid g P i = some v → vertexEdge g v = slotEdge P i := by
    intro P i v hv
    obtain ⟨e, he, hl⟩ := (edgeIdx_eq_some h).1 hv
    unfold vertexEdge
    rw [he]
    exact hl
  have hcell : ∀ P ∈ mcCells g, ∀ t ∈ cellTriangles g P, (∀ v ∈ corners t, v < (edgeList g).length) ∧
      (vertexEdge g t.1, vertexEdge g t.2.1, vertexEdge g t.2.2) ∈ latTriangles (solidAt g) P := by
    intro P hP t ht
    obtain ⟨hc, -⟩ := (mem_mcCells h).1 hP
    obtain ⟨A, hA, rfl⟩ := List.mem_map.1 ht
    obtain ⟨x, y, z, hx, hy, hz, lx, ly, lz, -⟩ := cellTriangles_ok h hc hA
    rw [hx, hy, hz]
    simp only [Option.getD_some]
    refine ⟨fun v hv => ?_, List.mem_map.2 ⟨A, hA, ?_⟩⟩
    · rcases mem_corners.1 hv with rfl | rfl | rfl <;> assumption
    · rw [hvid P _ x hx, hvid P _ y hy, hvid P _ z hz]
  have hren : ∀ t u : Nat × Nat × Nat, (∀ v ∈ corners t, v < (edgeList g).length) → (∀ v ∈ corners u, v < (edgeList g).length) →
      MeetProperly (edgePos (midTau g)) (vertexEdge g t.1, vertexEdge g t.2.1, vertexEdge g t.2.2)
        (vertexEdge g u.1, vertexEdge g u.2.1, vertexEdge g u.2.2) →
      MeetProperly (vertexPos ⟨(edgeList g).map (mcVertex nrm), flatTri ((mcCells g).flatMap (cellTriangles g))⟩) t u := by
    intro t u ht hu hm
    have hall : ∀ i ∈ corners t ∪ corners u, i < (edgeList g).length := fun i hi =>
      (Finset.mem_union.1 hi).elim (ht i) (hu i)
    exact meet_rename (fun i hi j hj e => vertexEdge_inj h (hall i hi) (hall j hj) e) (fun i hi => hpos i (hall i hi)) hm
  refine ⟨?_, ?_, ?_⟩
  · intro i j hi hj hne e
    rw [List.length_map] at hi hj
    rw [hpos i hi, hpos j hj] at e
    exact hne (vertexEdge_inj h hi hj (edgePos_inj hτ e))
  · intro t ht
    dsimp only at ht
    rw [triangles_flatTri] at ht
    obtain ⟨P, hP, ht⟩ := List.mem_flatMap.1 ht
    obtain ⟨hlt, hmem⟩ := hcell P hP t ht
    obtain ⟨A, hA, e⟩ := List.mem_map.1 hmem
    rw [Prod.mk.injEq, Prod.mk.injEq] at e
    obtain ⟨e1, e2, e3⟩ := e
    rw [hpos _ (hlt _ (mem_corners.2 (Or.inl rfl))), hpos _ (hlt _ (mem_corners.2 (Or.inr (Or.inl rfl)))),
      hpos _ (hlt _ (mem_corners.2 (Or.inr (Or.inr rfl)))), ← e1, ← e2, ← e3]
    obtain ⟨l1, l2, l3⟩ := tri_lt (latMask_lt _ P) hA
    have := cell_area (latMask_lt (solidAt g) P) (t := volT (midTau g) P) (fun i => hτ (slotEdge P i)) hA
    rw [edgePos_slot _ P l1, edgePos_slot _ P l2, edgePos_slot _ P l3]
    intro h0
    apply this
    rw [← h0]
    unfold doubleArea
    congr 1 <;> simp only [Vec3.sub, Vec3.add, add_sub_add_left_eq_sub]
  · dsimp only
    rw [triangles_flatTri, List.pairwise_flatMap]
    constructor
    · intro P hP
      have hm : (cellTriangles g P).map (fun t => (vertexEdge g t.1, vertexEdge g t.2.1, vertexEdge g t.2.2)) = latTriangles (solidAt g) P := by
        obtain ⟨hc, -⟩ := (mem_mcCells h).1 hP
        unfold cellTriangles latTriangles
        rw [List.map_map]
        refine List.map_congr_left fun A hA => ?_
        obtain ⟨x, y, z, hx, hy, hz, -⟩ := cellTriangles_ok h hc hA
        simp only [Function.comp, hx, hy, hz, Option.getD_some]
        rw [hvid P _ x hx, hvid P _ y hy, hvid P _ z hz]
      have := lat_same_cell (s := solidAt g) hτ P
      rw [← hm, List.pairwise_map] at this
      exact this.imp_of_mem fun {t u} ht hu hh => hren t u (hcell P hP t ht).1 (hcell P hP u hu).1 hh
    · have hnd : (mcCells g).Nodup := (mcCells_sorted h).imp (fun hlt he => by subst he; omega)
      rw [List.nodup_iff_pairwise_ne] at hnd
      refine hnd.imp_of_mem fun {P Q} hP hQ hne t ht u hu => ?_
      exact hren t u (hcell P hP t ht).1 (hcell Q hQ u hu).1
        (lat_cells hτ hne _ (hcell P hP t ht).2 _ (hcell Q hQ u hu).2)

/-- C90 (filled grids): a grid of any history, filled with a zero finder that puts the surface strictly inside the edges. -/
theorem C90_fill {g g' : Grid K} (hg : g.Reachable) (hstep : 0 < g.step) {f : ScalarField K} (hp : ProperField f) {sv : ZeroFinder K}
    (hsv : InsideEdges f sv g.globalPos g.step) (h : g.fill f sv = some g') (nrm : Vec3 K → Vec3 K) {r : PlacedMesh K}
    (hr : marchingCubes nrm g' = some r) : EmbeddedMesh r.mesh := by
  refine C90_embedded (C07_filled hg hp h) (fun D e he => ?_) nrm hr
  obtain ⟨p, -, hc, rfl⟩ := ((C07_fill_edges hg h D).1 e).1 he
  obtain ⟨h1, h2⟩ := hsv D p hc
  have e : (worldPos g.globalPos g.step (edgeEnd D p)).get D = (worldPos g.globalPos g.step p).get D + g.step := by
    cases D <;> simp [worldPos, edgeEnd, shift, Vec3.get] <;> ring
  unfold edgeRecord
  dsimp only
  constructor
  · apply div_pos _ hstep
    linarith
  · rw [div_lt_one hstep]
    linarith

/-- C90 (regula falsi): if the field is zero at no grid point, the regula falsi zero finder puts the surface strictly inside the edges. -/
theorem C90_regula_falsi (f : ScalarField K) (nan : K) (steps : Int) (origin : Vec3 K) {step : K} (hstep : 0 < step)
    (hne : ∀ p, f.value (worldPos origin step p) ≠ 0) : InsideEdges f (regulaFalsiFinder nan steps) origin step := by
  intro D p hc
  have hend : worldPos origin step (edgeEnd D p) = (worldPos origin step p).set D ((worldPos origin step p).get D + step) := by
    cases D <;> simp [worldPos, edgeEnd, shift, Vec3.get, Vec3.set] <;> ring
  obtain ⟨h1, h2⟩ := C07_solver_precondition hc
  have a0 := hne p
  have b0 := hne (edgeEnd D p)
  rw [hend] at h1 h2 b0 ⊢
  set P := worldPos origin step p with hP
  have hge : (P.set D (P.get D + step)).get D = P.get D + step := by cases D <;> rfl
  have hco : crossingCoord f (regulaFalsiFinder nan steps) (worldPos origin step) D p =
      (rfFind steps D P.x P.y P.z (P.get D + step) (f.value P) (f.value (P.set D (P.get D + step))) f).getD nan := by
    unfold crossingCoord
    rw [hend, ← hP]
    cases D <;> rfl
  rw [hco, hge]
  obtain ⟨l, r, -, hr, hlast, hlen, -, -, hb, -⟩ := C12_regula_falsi steps D P.x P.y P.z (P.get D + step) (f.value P)
    (f.value (P.set D (P.get D + step))) f (by show P.get D ≠ _; linarith)
    (lt_of_le_of_ne h1 (mul_ne_zero a0 b0))
  rw [hr]
  have := hb r (List.mem_of_getLast? hlast)
  have e1 : (⟨P.x, P.y, P.z⟩ : Vec3 K).get D = P.get D := rfl
  rw [e1, min_eq_left (by linarith), max_eq_right (by linarith)] at this
  exact this

/-! ### Chunks -/

/-- Hulls after scaling and moving. -/
theorem hull_similar {ι : Type} {pos : ι → Vec3 K} {S : Finset ι} {sc : K} (hsc : sc ≠ 0) (o y : Vec3 K) :
    Hull (fun i => (⟨(pos i).x * sc + o.x, (pos i).y * sc + o.y, (pos i).z * sc + o.z⟩ : Vec3 K)) S y ↔
      Hull pos S ⟨(y.x - o.x) / sc, (y.y - o.y) / sc, (y.z - o.z) / sc⟩ := by
  unfold Hull
  refine exists_congr fun w => and_congr_right fun _ => and_congr_right fun h1 => ?_
  have key : ∀ (p : ι → K) (c q : K), ∑ i ∈ S, w i * (p i * sc + c) = q ↔ ∑ i ∈ S, w i * p i = (q - c) / sc := by
    intro p c q
    have e : ∑ i ∈ S, w i * (p i * sc + c) = (∑ i ∈ S, w i * p i) * sc + c := by
      rw [Finset.sum_mul]
      have : ∀ i ∈ S, w i * (p i * sc + c) = w i * p i * sc + c * w i := fun i _ => by ring
      rw [Finset.sum_congr rfl this, Finset.sum_add_distrib, ← Finset.mul_sum, h1, mul_one]
    rw [e, eq_div_iff hsc]
    constructor <;> intro h <;> linarith
  constructor
  · intro h a
    have := h a
    cases a <;> simp only [Vec3.get] at this ⊢ <;> exact (key _ _ _).1 this
  · intro h a
    have := h a
    cases a <;> simp only [Vec3.get] at this ⊢ <;> exact (key _ _ _).2 this

/-- Where the surface crosses an edge of the world's lattice; in the middle if it does not. -/
noncomputable def worldMid (f : ScalarField K) (sv : ZeroFinder K) (origin : Vec3 K) (step : K) (E : LEdge) : K :=
  open Classical in
  if Crosses f (worldPos origin step) E.axis E.at_ then (edgeRecord f sv (worldPos origin step) step E.axis E.at_).offset else 1 / 2

variable {f : ScalarField K} {sv : ZeroFinder K} {nrm : Vec3 K → Vec3 K} {origin : Vec3 K} {step : K} {n : Nat}

theorem worldMid_strict (hstep : 0 < step) (hsv : InsideEdges f sv origin step) (E : LEdge) :
    0 < worldMid f sv origin step E ∧ worldMid f sv origin step E < 1 := by
  unfold worldMid
  split_ifs with hc
  · obtain ⟨h1, h2⟩ := hsv _ _ hc
    have e : (worldPos origin step (edgeEnd E.axis E.at_)).get E.axis = (worldPos origin step E.at_).get E.axis + step := by
      cases E.axis <;> simp [worldPos, edgeEnd, shift, Vec3.get] <;> ring
    unfold edgeRecord
    dsimp only
    constructor
    · apply div_pos _ hstep
      linarith
    · rw [div_lt_one hstep]
      linarith
  · constructor <;> norm_num

theorem chunk_vertex (hf : ProperField f) {k : Chunk K} (hk : k.Computed f sv nrm origin step n) (hstep : step ≠ 0) {v : Nat}
    (hv : v < (edgeList k.grid).length) :
    let q := edgePos (worldMid f sv origin step) (chunkEdge n k.coord (vertexEdge k.grid v))
    worldVertex k.result v = ⟨q.x * step + origin.x, q.y * step + origin.y, q.z * step + origin.z⟩ := by
  have hlen : k.result.mesh.vertices.length = (edgeList k.grid).length := by
    have hok := computed_ok hf hk
    have hr := hok.result
    rw [mc_result hok.filled, Option.some.injEq] at hr
    rw [← hr, List.length_map]
  have ha := List.getElem?_eq_getElem (hlen.symm ▸ hv : v < k.result.mesh.vertices.length)
  obtain ⟨e, he, hc, hp, -⟩ := C76_same_vertex hf hk hstep ha
  have hE : vertexEdge k.grid v = .ofGridEdge e := by unfold vertexEdge; rw [he]
  dsimp only at hc hp ⊢
  unfold worldVertex vertexPos
  rw [ha, hE]
  dsimp only
  unfold toWorld
  rw [hp]
  generalize chunkEdge n k.coord (.ofGridEdge e) = E at *
  have ht : worldMid f sv origin step E = (crossingCoord f sv (worldPos origin step) E.axis E.at_ - (worldPos origin step E.at_).get E.axis) / step := by
    unfold worldMid
    rw [if_pos hc]
    rfl
  unfold edgePos
  rw [ht]
  obtain ⟨D, x, y, z⟩ := E
  dsimp only
  generalize crossingCoord f sv (worldPos origin step) D ⟨x, y, z⟩ = c
  cases D <;> simp only [worldPos, Vec3.set, Vec3.get, toVec] <;> ext <;> simp only [] <;> field_simp <;> ring

/-- Triangles of a chunk in the world's lattice. -/
theorem chunk_triangle (hf : ProperField f) {k : Chunk K} (hk : k.Computed f sv nrm origin step n) {t : Nat × Nat × Nat}
    (ht : t ∈ triangles k.result.mesh.indices) :
    (∀ v ∈ corners t, v < (edgeList k.grid).length) ∧ ∃ P, k.HasCell n P ∧
      (chunkEdge n k.coord (vertexEdge k.grid t.1), chunkEdge n k.coord (vertexEdge k.grid t.2.1), chunkEdge n k.coord (vertexEdge k.grid t.2.2)) ∈
        latTriangles (fun p => decide (f.value (worldPos origin step p) ≤ 0)) P := by
  have hok := computed_ok hf hk
  have h := hok.filled
  have hr := hok.result
  rw [mc_result h, Option.some.injEq] at hr
  rw [← hr] at ht
  dsimp only at ht
  rw [triangles_flatTri] at ht
  obtain ⟨P, hP, ht⟩ := List.mem_flatMap.1 ht
  obtain ⟨hc, -⟩ := (mem_mcCells h).1 hP
  obtain ⟨A, hA, rfl⟩ := List.mem_map.1 ht
  obtain ⟨x, y, z, hx, hy, hz, lx, ly, lz, -⟩ := cellTriangles_ok h hc hA
  have hvid : ∀ i v, vid k.grid P i = some v → vertexEdge k.grid v = slotEdge P i := by
    intro i v hv
    obtain ⟨e, he, hl⟩ := (edgeIdx_eq_some h).1 hv
    unfold vertexEdge
    rw [he]
    exact hl
  rw [hx, hy, hz]
  simp only [Option.getD_some]
  refine ⟨fun v hv => ?_, chunkPoint n k.coord P, ⟨P, hc, rfl⟩, List.mem_map.2 ⟨A, ?_, ?_⟩⟩
  · rcases mem_corners.1 hv with rfl | rfl | rfl <;> assumption
  · rw [← chunk_mask hok hc]; exact hA
  · rw [hvid _ x hx, hvid _ y hy, hvid _ z hz, chunkEdge_slot, chunkEdge_slot, chunkEdge_slot]

theorem chunkEdge_inj {c : IVec3} {E F : LEdge} (h : chunkEdge n c E = chunkEdge n c F) : E = F := by
  unfold chunkEdge at h
  rw [LEdge.mk.injEq] at h
  obtain ⟨D, p⟩ := E
  obtain ⟨D', p'⟩ := F
  dsimp only at h
  rw [h.1, chunkPoint_inj h.2]

/-- C90 (chunks): in a world of chunks filled from one field and meshed one by one, with the surface strictly inside the edges, the meshes of
different chunks do not cut each other either: a point common to a triangle of one chunk and a triangle of another is a point of the corner or
the side that they have in common. -/
theorem C90_chunks (hf : ProperField f) (hstep : 0 < step) (hsv : InsideEdges f sv origin step) {k k' : Chunk K}
    (hk : k.Computed f sv nrm origin step n) (hk' : k'.Computed f sv nrm origin step n) (hd : k.coord ≠ k'.coord)
    {t u : Nat × Nat × Nat} (ht : t ∈ triangles k.result.mesh.indices) (hu : u ∈ triangles k'.result.mesh.indices) {x : Vec3 K}
    (hx : Hull (worldVertex k.result) (corners t) x) (hx' : Hull (worldVertex k'.result) (corners u) x) :
    open Classical in
    Hull (worldVertex k.result) ((corners t).filter fun i => ∃ j ∈ corners u, worldVertex k.result i = worldVertex k'.result j) x := by
  classical
  have hτ := worldMid_strict hstep hsv
  obtain ⟨lt, P, ⟨P0, hP0, hP⟩, hT⟩ := chunk_triangle hf hk ht
  obtain ⟨lu, Q, ⟨Q0, hQ0, hQ⟩, hU⟩ := chunk_triangle hf hk' hu
  have hF := (computed_ok hf hk).filled
  have hF' := (computed_ok hf hk').filled
  have hne : P ≠ Q := by
    rw [hP, hQ]
    intro e
    have e1 : (n : Int) = 2 * k.grid.half := by rw [← (computed_ok hf hk).size]; exact hF.wf.half_eq
    have e2 : (n : Int) = 2 * k'.grid.half := by rw [← (computed_ok hf hk').size]; exact hF'.wf.half_eq
    have hmax : k'.grid.maxCoord = k.grid.maxCoord := by
      show k'.grid.half = k.grid.half
      omega
    rw [hmax] at hQ0
    exact hd (cell_chunk_unique (h := k.grid.maxCoord) e1 hP0 hQ0 e)
  have hmeet := (lat_cells hτ hne _ hT _ hU).2
  let A : Vec3 K → Vec3 K := fun q => ⟨q.x * step + origin.x, q.y * step + origin.y, q.z * step + origin.z⟩
  let y : Vec3 K := ⟨(x.x - origin.x) / step, (x.y - origin.y) / step, (x.z - origin.z) / step⟩
  have hc : ∀ (h : Nat → LEdge) (t : Nat × Nat × Nat), corners (h t.1, h t.2.1, h t.2.2) = (corners t).image h := by
    intro h t
    ext E
    simp only [mem_corners, Finset.mem_image, or_and_right, exists_or, exists_eq_left]
    exact or_congr eq_comm (or_congr eq_comm eq_comm)
  have move : ∀ (S : Finset Nat) (k : Chunk K), k.Computed f sv nrm origin step n → (∀ v ∈ S, v < (edgeList k.grid).length) →
      (Hull (worldVertex k.result) S x ↔
        Hull (edgePos (worldMid f sv origin step)) (S.image fun v => chunkEdge n k.coord (vertexEdge k.grid v)) y) := by
    intro S k hk hS
    rw [hull_image (f := fun v => chunkEdge n k.coord (vertexEdge k.grid v)) (pos := fun E => A (edgePos (worldMid f sv origin step) E))
      (fun i hi j hj e => vertexEdge_inj (computed_ok hf hk).filled (hS i hi) (hS j hj) (chunkEdge_inj e))
      (fun i hi => chunk_vertex hf hk hstep.ne' (hS i hi))]
    exact hull_similar hstep.ne' origin x
  rw [move _ k hk lt, ← hc (fun v => chunkEdge n k.coord (vertexEdge k.grid v))] at hx
  rw [move _ k' hk' lu, ← hc (fun v => chunkEdge n k'.coord (vertexEdge k'.grid v))] at hx'
  rw [move _ k hk fun v hv => lt v (Finset.mem_of_mem_filter v hv)]
  refine (hmeet y hx hx').mono fun E hE => ?_
  obtain ⟨h1, h2⟩ := Finset.mem_inter.1 hE
  rw [hc (fun v => chunkEdge n k.coord (vertexEdge k.grid v)), Finset.mem_image] at h1
  rw [hc (fun v => chunkEdge n k'.coord (vertexEdge k'.grid v)), Finset.mem_image] at h2
  obtain ⟨i, hi, rfl⟩ := h1
  obtain ⟨j, hj, e⟩ := h2
  refine Finset.mem_image.2 ⟨i, Finset.mem_filter.2 ⟨hi, j, hj, ?_⟩, rfl⟩
  have a1 := chunk_vertex hf hk hstep.ne' (lt i hi)
  have a2 := chunk_vertex hf hk' hstep.ne' (lu j hj)
  dsimp only at a1 a2 e
  rw [a1, a2, e]

/-- Non-vacuity of C90: the cube of side 3 lies across the seam of two chunks of four unit cells per side, the surface is strictly inside the
crossed edges, and both meshes, which are embedded, have vertices that belong to triangles. -/
example : ∃ k k' : Chunk ℝ, k.Computed boxField (regulaFalsiFinder 0 4) id ⟨-2, 0, 0⟩ 1 4 ∧
    k'.Computed boxField (regulaFalsiFinder 0 4) id ⟨-2, 0, 0⟩ 1 4 ∧ k.coord ≠ k'.coord ∧ ProperField boxField ∧
    InsideEdges boxField (regulaFalsiFinder 0 4) ⟨-2, 0, 0⟩ 1 ∧ EmbeddedMesh k.result.mesh ∧ EmbeddedMesh k'.result.mesh ∧
    (∃ i, UsedVertex k.result i) ∧ ∃ i, UsedVertex k'.result i := by
  have hprop : ProperField boxField := by intro q _; simp [boxField]
  have hval : ∀ (n : Int) (p : IVec3), boxField.value (worldPos ⟨(n : ℝ), 0, 0⟩ 1 p) =
      ((max (max |n + p.x| |p.y|) |p.z| : Int) : ℝ) - 3 / 2 := by
    intro n p
    simp [boxField, worldPos, add_comm, max_assoc]
  have hne : ∀ (n : Int) (p : IVec3), boxField.value (worldPos ⟨(n : ℝ), 0, 0⟩ 1 p) ≠ 0 := by
    intro n p e
    rw [hval] at e
    have h2 : (((2 * max (max |n + p.x| |p.y|) |p.z| : Int)) : ℝ) = ((3 : Int) : ℝ) := by push_cast at e ⊢; linarith
    have := Int.cast_injective h2
    omega
  have chunk : ∀ (c : IVec3) (n : Int), worldPos (⟨-2, 0, 0⟩ : Vec3 ℝ) (((4 : Nat) : Int) * 1 : ℝ) c = ⟨(n : ℝ), 0, 0⟩ →
      ∀ p : IVec3, InCube 2 p → InCube 2 (edgeEnd .X p) → Crosses boxField (worldPos ⟨(n : ℝ), 0, 0⟩ 1) .X p →
      ∃ k : Chunk ℝ, k.coord = c ∧ k.Computed boxField (regulaFalsiFinder 0 4) id ⟨-2, 0, 0⟩ 1 4 ∧ EmbeddedMesh k.result.mesh ∧
        ∃ i, UsedVertex k.result i := by
    intro c n hpos p hp1 hp2 hcr
    obtain ⟨g, hg, hs, hh, hp, ht⟩ : ∃ g : Grid ℝ, Grid.mk' 4 ⟨(n : ℝ), 0, 0⟩ 1 = .ok g ∧ g.size = 4 ∧ g.maxCoord = 2 ∧
      g.globalPos = ⟨(n : ℝ), 0, 0⟩ ∧ g.step = 1 := ⟨_, rfl, rfl, rfl, rfl, rfl⟩
    have hr : g.Reachable := .mk hg
    obtain ⟨g', e, -⟩ := C06_fill_materials hr boxField (regulaFalsiFinder 0 4)
    obtain ⟨r, hres, -⟩ := C15_valid (C07_filled hr hprop e) id
    have hst : 0 < g.step := by rw [ht]; norm_num
    refine ⟨⟨c, g', r⟩, rfl, ⟨g, hr, hs, ht, hp.trans hpos.symm, e, hres⟩, ?_, ?_⟩
    · refine C90_fill hr hst hprop (C90_regula_falsi _ _ _ _ hst fun p => ?_) e id hres
      rw [hp, ht]
      exact hne n p
    · rw [← hh] at hp1 hp2
      rw [← hp, ← ht] at hcr
      obtain ⟨i, v, hu, -⟩ := mc_edge_vertex hr hst hprop (C69_solvers boxField 0 4 g.globalPos hst).2 e id hres hcr hp1 hp2
      exact ⟨i, hu⟩
  obtain ⟨k, hc, h1, h2, h3⟩ := chunk ⟨0, 0, 0⟩ (-2) (by simp [worldPos]) ⟨0, 0, 0⟩ (by decide) (by decide) (by
    unfold Crosses
    rw [hval, hval]
    simp [edgeEnd, shift]
    norm_num)
  obtain ⟨k', hc', h1', h2', h3'⟩ := chunk ⟨1, 0, 0⟩ 2 (by simp [worldPos]; norm_num) ⟨-1, 0, 0⟩ (by decide) (by decide) (by
    unfold Crosses
    rw [hval, hval]
    simp [edgeEnd, shift]
    norm_num)
  refine ⟨k, k', h1, h1', by rw [hc, hc']; decide, hprop, C90_regula_falsi _ _ _ _ one_pos fun p => ?_, h2, h2', h3, h3'⟩
  have := hne (-2) p
  push_cast at this
  exact this

end Isomesh
