import Verif.Proofs.Chunks

/-! C76: marching cubes on chunks of one world: no cracks between the meshes of neighbouring chunks. -/

set_option linter.unusedSectionVars false

namespace Isomesh
open Spec

section
variable {K : Type} [Add K] [Sub K] [Mul K] [Div K] [Zero K] [IntCast K] [LinearOrder K]

theorem chunkPoint_shift (n : Nat) (c p : IVec3) (x y z : Int) :
    chunkPoint n c (shift p x y z) = shift (chunkPoint n c p) x y z := by
  unfold chunkPoint shift
  simp only [IVec3.mk.injEq]
  omega

theorem chunkEdge_slot (n : Nat) (c P : IVec3) (i : Nat) : chunkEdge n c (slotEdge P i) = slotEdge (chunkPoint n c P) i := by
  unfold chunkEdge slotEdge
  rw [chunkPoint_shift]

theorem chunkPoint_inj {n : Nat} {c p q : IVec3} (h : chunkPoint n c p = chunkPoint n c q) : p = q := by
  obtain ⟨x, y, z⟩ := p
  obtain ⟨x', y', z'⟩ := q
  simp only [chunkPoint, shift, IVec3.mk.injEq] at h ⊢
  omega

/-- A filled chunk of `n` cells per side whose solid points are those of `s`, and its mesh. -/
structure ChunkOk (nrm : Vec3 K → Vec3 K) (n : Nat) (s : IVec3 → Bool) (k : Chunk K) : Prop where
  filled : Filled k.grid
  size : k.grid.size = n
  solid : ∀ p, InCube k.grid.maxCoord p → solidAt k.grid p = s (chunkPoint n k.coord p)
  result : marchingCubes nrm k.grid = some k.result

variable {nrm : Vec3 K → Vec3 K} {n : Nat} {s : IVec3 → Bool} {k : Chunk K}

theorem chunk_mask (h : ChunkOk nrm n s k) {P : IVec3} (hP : CellIn k.grid.maxCoord P) :
    cellMask k.grid P = latMask s (chunkPoint n k.coord P) := by
  apply Nat.eq_of_testBit_eq
  intro i
  by_cases hi : i < 8
  · have e1 := solid_cellMask k.grid P hi
    have e2 := solid_latMask s (chunkPoint n k.coord P) hi
    unfold Spec.solid at e1 e2
    rw [e1, e2, ← chunkPoint_shift, h.solid]
    apply hP
    obtain ⟨x, y, z⟩ := P
    interval_cases i <;> simp [cellVertices, cornerPos, shift]
  · unfold cellMask latMask
    rw [testBit_maskOf, testBit_maskOf]
    simp [hi]

theorem worldSides_eq (h : ChunkOk nrm n s k) :
    k.worldSides n = (mcCells k.grid).flatMap fun P => latSides s (chunkPoint n k.coord P) := by
  have hr := h.result
  rw [mc_result h.filled, Option.some.injEq] at hr
  unfold Chunk.worldSides
  rw [← hr]
  dsimp only
  rw [triangles_flatTri]
  have : sides ((mcCells k.grid).flatMap (cellTriangles k.grid)) =
      (mcCells k.grid).flatMap (fun P => sides (cellTriangles k.grid P)) := by
    unfold sides; rw [List.flatMap_assoc]
  rw [this, List.filterMap_flatMap]
  apply flatMap_agree
  intro P hP
  obtain ⟨hc, -⟩ := (mem_mcCells h.filled).1 hP
  rw [cellSides_eq, List.filterMap_map]
  unfold latSides
  rw [← chunk_mask h hc, ← List.filterMap_eq_map]
  apply List.filterMap_congr
  rintro ⟨i, j⟩ hs
  have hsome : ∃ u v, vid k.grid P i = some u ∧ vid k.grid P j = some v := by
    unfold sides at hs
    obtain ⟨t, ht, hm⟩ := List.mem_flatMap.1 hs
    obtain ⟨x, y, z, hx, hy, hz, -⟩ := cellTriangles_ok h.filled hc ht
    simp only [List.mem_cons, List.not_mem_nil, or_false, Prod.mk.injEq] at hm
    rcases hm with ⟨rfl, rfl⟩ | ⟨rfl, rfl⟩ | ⟨rfl, rfl⟩
    · exact ⟨_, _, hx, hy⟩
    · exact ⟨_, _, hy, hz⟩
    · exact ⟨_, _, hz, hx⟩
  obtain ⟨u, v, hu, hv⟩ := hsome
  obtain ⟨a, ha, la⟩ := (edgeIdx_eq_some h.filled).1 hu
  obtain ⟨b, hb, lb⟩ := (edgeIdx_eq_some h.filled).1 hv
  simp only [Function.comp, hu, hv, Option.getD_some, ha, hb, la, lb, chunkEdge_slot]

/-- An in-chunk cell without crossing edges has no triangles. -/
theorem no_sides (h : ChunkOk nrm n s k) {P : IVec3} (hP : CellIn k.grid.maxCoord P) (hn : P ∉ mcCells k.grid) :
    latSides s (chunkPoint n k.coord P) = [] := by
  unfold latSides
  rw [← chunk_mask h hP, List.map_eq_nil_iff, List.eq_nil_iff_forall_not_mem]
  intro t ht
  obtain ⟨l1, -⟩ := sides_table (cellMask_lt k.grid P) ht
  have hc := (side_crosses (cellMask_lt k.grid P) ht).1
  apply hn
  rw [mem_mcCells h.filled]
  exact ⟨hP, t.1, l1, by rw [vid_isSome h.filled hP l1, hc]⟩

/-- Cells of all chunks that have triangles, as cells of the world's lattice. -/
def worldCells (n : Nat) (chunks : List (Chunk K)) : List IVec3 :=
  chunks.flatMap fun k => (mcCells k.grid).map (chunkPoint n k.coord)

variable {chunks : List (Chunk K)}

theorem worldSides_all (hk : ∀ k ∈ chunks, ChunkOk nrm n s k) :
    chunks.flatMap (fun k => k.worldSides n) = (worldCells n chunks).flatMap (latSides s) := by
  unfold worldCells
  rw [List.flatMap_assoc]
  apply flatMap_agree
  intro k hm
  rw [worldSides_eq (hk k hm), List.flatMap_map]

theorem cell_chunk_unique {h : Int} {n : Nat} (hn : (n : Int) = 2 * h) {c d P Q : IVec3} (hP : CellIn h P) (hQ : CellIn h Q)
    (e : chunkPoint n c P = chunkPoint n d Q) : c = d := by
  rw [cellIn_iff] at hP hQ
  have key : ∀ a b x y : Int, -h ≤ x → x < h → -h ≤ y → y < h → x + n * a = y + n * b → a = b := by
    intro a b x y h1 h2 h3 h4 e
    rw [hn] at e
    by_contra hne
    rcases lt_or_gt_of_ne hne with hl | hl
    · nlinarith
    · nlinarith
  obtain ⟨cx, cy, cz⟩ := c
  obtain ⟨dx, dy, dz⟩ := d
  simp only [chunkPoint, shift, IVec3.mk.injEq] at e ⊢
  exact ⟨key _ _ _ _ (by omega) (by omega) (by omega) (by omega) e.1,
    key _ _ _ _ (by omega) (by omega) (by omega) (by omega) e.2.1,
    key _ _ _ _ (by omega) (by omega) (by omega) (by omega) e.2.2⟩

theorem worldCells_nodup (hk : ∀ k ∈ chunks, ChunkOk nrm n s k) (hd : (chunks.map Chunk.coord).Nodup) :
    (worldCells n chunks).Nodup := by
  unfold worldCells
  rw [List.nodup_flatMap]
  constructor
  · intro k hm
    have h := hk k hm
    have : (mcCells k.grid).Nodup := (mcCells_sorted h.filled).imp (fun hlt he => by subst he; omega)
    exact this.map (fun p q e => chunkPoint_inj e)
  · rw [List.nodup_iff_pairwise_ne, List.pairwise_map] at hd
    refine hd.imp_of_mem ?_
    intro a b ha hb hne x h1 h2
    obtain ⟨P, hP, rfl⟩ := List.mem_map.1 h1
    obtain ⟨Q, hQ, e⟩ := List.mem_map.1 h2
    have fa := hk a ha
    have fb := hk b hb
    have hP' := ((mem_mcCells fa.filled).1 hP).1
    have hQ' := ((mem_mcCells fb.filled).1 hQ).1
    have e1 := fa.filled.wf.half_eq
    have e2 := fb.filled.wf.half_eq
    rw [fa.size] at e1
    rw [fb.size] at e2
    have hmax : b.grid.maxCoord = a.grid.maxCoord := by
      show b.grid.half = a.grid.half
      omega
    rw [hmax] at hQ'
    exact hne (cell_chunk_unique (h := a.grid.maxCoord) e1 hP' hQ' e.symm)

theorem across_mem (P : IVec3) (f : Nat) : acrossFace P f ∈ cellNeighbours P := by
  have hs : faceSide f = 0 ∨ faceSide f = 1 := by unfold faceSide; omega
  obtain ⟨x, y, z⟩ := P
  unfold acrossFace faceDir
  cases faceAxis f <;> rcases hs with h | h <;> simp [h, shift, cellNeighbours]

/-- C76, in any arithmetic: chunks of `n` cells per side, at different places of the world, whose grids agree about which
points of the world's lattice are solid (at the points they share in particular).  Over all the triangles of all chunks each
directed side occurs at most once, and it occurs in one direction exactly as often as in the other, unless its two vertices lie
on edges that a cell of some chunk shares with a neighbouring cell that belongs to no chunk. -/
theorem C76_sides_match (hk : ∀ k ∈ chunks, ChunkOk nrm n s k) (hd : (chunks.map Chunk.coord).Nodup) (E F : LEdge) :
    let T := chunks.flatMap fun k => k.worldSides n
    T.count (E, F) ≤ 1 ∧
    (T.count (E, F) = T.count (F, E) ∨
      ∃ P Q, CellCovered n chunks P ∧ ¬ CellCovered n chunks Q ∧ Q ∈ cellNeighbours P ∧
        E.InCell P ∧ E.InCell Q ∧ F.InCell P ∧ F.InCell Q ∧ s E.at_ ≠ s (edgeEnd E.axis E.at_)) := by
  dsimp only
  rw [worldSides_all hk]
  obtain ⟨h1, h2⟩ := lat_closed s (worldCells_nodup hk hd) E F
  refine ⟨h1, h2.imp_right ?_⟩
  rintro ⟨P, hP, f, hf, hn, hne, i, hi, j, hj, fi, fj, rfl, rfl, hc⟩
  obtain ⟨k1, -⟩ := opp_table f hf i hi fi
  obtain ⟨k2, -⟩ := opp_table f hf j hj fj
  refine ⟨P, acrossFace P f, ?_, ?_, across_mem P f, slotEdge_in_cell hi, ?_, slotEdge_in_cell hj, ?_, ?_⟩
  · obtain ⟨k, hm, hP⟩ := List.mem_flatMap.1 hP
    obtain ⟨Q, hQ, rfl⟩ := List.mem_map.1 hP
    exact ⟨k, hm, Q, ((mem_mcCells (hk k hm).filled).1 hQ).1, rfl⟩
  · rintro ⟨k, hm, Q, hQ, e⟩
    rw [e] at hn hne
    by_cases hmem : Q ∈ mcCells k.grid
    · exact hn (List.mem_flatMap.2 ⟨k, hm, List.mem_map.2 ⟨Q, hmem, rfl⟩⟩)
    · exact hne (no_sides (hk k hm) hQ hmem)
  · have := slotEdge_in_cell (P := acrossFace P f) k1
    rw [slotEdge_across hf hi fi] at this
    exact this
  · have := slotEdge_in_cell (P := acrossFace P f) k2
    rw [slotEdge_across hf hj fj] at this
    exact this
  · obtain ⟨h0, h1⟩ := slotEdge_ends P i hi
    rw [h1, h0, ← solid_latMask s P (edgeCorner_lt i 0 hi (by omega)), ← solid_latMask s P (edgeCorner_lt i 1 hi (by omega))]
    unfold Spec.crosses at hc
    simpa using hc

end

section Exact
variable {K : Type} [Field K] [LinearOrder K] [IsStrictOrderedRing K]
variable {f : ScalarField K} {sv : ZeroFinder K} {nrm : Vec3 K → Vec3 K} {origin : Vec3 K} {step : K} {n : Nat}
variable {chunks : List (Chunk K)}

theorem worldPos_chunk (c p : IVec3) :
    worldPos (worldPos origin (((n : Int) : K) * step) c) step p = worldPos origin step (chunkPoint n c p) := by
  unfold worldPos chunkPoint shift
  ext <;> push_cast <;> ring

theorem computed_ok (hf : ProperField f) {k : Chunk K} (h : k.Computed f sv nrm origin step n) :
    ChunkOk nrm n (fun p => decide (f.value (worldPos origin step p) ≤ 0)) k := by
  obtain ⟨g, hg, hsz, hst, hpos, hfill, hres⟩ := h
  obtain ⟨g', e, ⟨h1, h2, -, -⟩, hmat⟩ := C06_fill_materials hg f sv
  rw [hfill] at e; cases e
  refine ⟨C07_filled hg hf hfill, by rw [h1, hsz], ?_, hres⟩
  intro p hp
  have hp' : InCube g.maxCoord p := by
    have : k.grid.maxCoord = g.maxCoord := h2
    rwa [this] at hp
  have hm := hmat p hp'
  unfold solidAt
  rw [hm, hst, hpos, worldPos_chunk]
  simp only [vertexMaterial_le]
  by_cases hv : f.value (worldPos origin step (chunkPoint n k.coord p)) ≤ 0
  · simp [hv, hf _ hv]
  · simp [hv]

/-- C76 (no cracks).  Any finite collection of chunks of one world, filled from one field and meshed separately with marching
cubes: over all the triangles of all chunks each directed side occurs at most once, and a side is matched by one in the opposite
direction, from the same chunk or from a neighbouring one, unless it lies where a cell of some chunk borders on a cell that no
chunk covers. -/
theorem C76_no_cracks (hf : ProperField f) (hk : ∀ k ∈ chunks, k.Computed f sv nrm origin step n)
    (hd : (chunks.map Chunk.coord).Nodup) (E F : LEdge) :
    let T := chunks.flatMap fun k => k.worldSides n
    T.count (E, F) ≤ 1 ∧
    (T.count (E, F) = T.count (F, E) ∨
      ∃ P Q, CellCovered n chunks P ∧ ¬ CellCovered n chunks Q ∧ Q ∈ cellNeighbours P ∧
        E.InCell P ∧ E.InCell Q ∧ F.InCell P ∧ F.InCell Q) := by
  obtain ⟨h1, h2⟩ := C76_sides_match (fun k hm => computed_ok hf (hk k hm)) hd E F
  refine ⟨h1, h2.imp_right ?_⟩
  rintro ⟨P, Q, a, b, c, d, e, f, g, -⟩
  exact ⟨P, Q, a, b, c, d, e, f, g⟩

/-- C76 (closed world).  If the field is positive at every lattice point where a covered cell touches an uncovered one, so that
the solid does not reach the outer surface of the chunks, then the meshes of all the chunks together are watertight. -/
theorem C76_watertight (hf : ProperField f) (hk : ∀ k ∈ chunks, k.Computed f sv nrm origin step n)
    (hd : (chunks.map Chunk.coord).Nodup)
    (hclear : ∀ P Q, CellCovered n chunks P → ¬ CellCovered n chunks Q → ∀ p ∈ cellVertices P, p ∈ cellVertices Q →
      0 < f.value (worldPos origin step p)) (E F : LEdge) :
    (chunks.flatMap fun k => k.worldSides n).count (E, F) = (chunks.flatMap fun k => k.worldSides n).count (F, E) := by
  obtain ⟨-, h2⟩ := C76_sides_match (fun k hm => computed_ok hf (hk k hm)) hd E F
  rcases h2 with h2 | ⟨P, Q, a, b, -, d, e, -, -, hs⟩
  · exact h2
  · exfalso
    have key : ∀ v ∈ edgeVertices E.axis E.at_, ¬ f.value (worldPos origin step v) ≤ 0 :=
      fun v hv => not_le.2 (hclear P Q a b v (d v hv) (e v hv))
    have k1 := key E.at_ (by cases E.axis <;> simp [edgeVertices])
    have k2 := key (edgeEnd E.axis E.at_) (by cases E.axis <;> simp [edgeVertices, edgeEnd])
    simp [k1, k2] at hs

theorem chunk_edgeEnd (c p : IVec3) (D : Axis) : chunkPoint n c (edgeEnd D p) = edgeEnd D (chunkPoint n c p) := by
  cases D <;> exact chunkPoint_shift n c p _ _ _

theorem chunk_record (c p : IVec3) (D : Axis) :
    crossingCoord f sv (fun p => worldPos origin step (chunkPoint n c p)) D p =
      crossingCoord f sv (worldPos origin step) D (chunkPoint n c p) := by
  unfold crossingCoord
  cases D <;> simp only [chunk_edgeEnd]

/-- C76 (same vertices).  Every mesh vertex of a chunk, taken to global coordinates, is determined by the field, the solver and
the edge of the world's lattice that carries it, and so are its normal and material.  Vertices of different chunks on a common
edge therefore coincide. -/
theorem C76_same_vertex (hf : ProperField f) {k : Chunk K} (hk : k.Computed f sv nrm origin step n) (hstep : step ≠ 0)
    {a : Nat} {v : MeshVertex K} (hv : k.result.mesh.vertices[a]? = some v) :
    ∃ e, (edgeList k.grid)[a]? = some e ∧
      let E := chunkEdge n k.coord (.ofGridEdge e)
      let pos := worldPos origin step
      let q := (pos E.at_).set E.axis (crossingCoord f sv pos E.axis E.at_)
      Crosses f pos E.axis E.at_ ∧
      (⟨v.position.x * k.result.globalScale + k.result.globalPos.x, v.position.y * k.result.globalScale + k.result.globalPos.y,
        v.position.z * k.result.globalScale + k.result.globalPos.z⟩ : Vec3 K) = q ∧
      v.normal = nrm (f.grad q) ∧
      v.material = (if f.value (pos E.at_) ≤ 0 then vertexMaterial f (pos E.at_)
        else vertexMaterial f (pos (edgeEnd E.axis E.at_))) := by
  obtain ⟨g, hg, hsz, hst, hpos, hfill, hres⟩ := hk
  have hF := C07_filled hg hf hfill
  rw [mc_result hF, Option.some.injEq] at hres
  rw [← hres] at hv ⊢
  dsimp only at hv
  rw [List.getElem?_map, Option.map_eq_some_iff] at hv
  obtain ⟨e, he, rfl⟩ := hv
  refine ⟨e, he, ?_⟩
  have hmem := (mem_edgeList hF).1 (List.mem_of_getElem? he)
  have hp := C15_vertex_position hg hfill (by rw [hst]; exact hstep) hmem
  obtain ⟨p, -, hcr, hrec⟩ := ((C07_fill_edges hg hfill e.axis).1 e).1 hmem
  have hfun : worldPos g.globalPos g.step = fun p => worldPos origin step (chunkPoint n k.coord p) := by
    funext p
    rw [hpos, hst, worldPos_chunk]
  have hl : e.lesser = p := by rw [hrec]; rfl
  rw [hfun] at hp hcr hrec
  rw [chunk_record] at hp
  refine ⟨?_, hp, ?_, ?_⟩
  · show Crosses f _ e.axis (chunkPoint n k.coord e.lesser)
    rw [hl]
    unfold Crosses at hcr ⊢
    dsimp only at hcr
    rwa [chunk_edgeEnd] at hcr
  · show nrm e.gradient = _
    have : e.gradient = f.grad ((worldPos origin step (chunkPoint n k.coord e.lesser)).set e.axis
        (crossingCoord f sv (worldPos origin step) e.axis (chunkPoint n k.coord e.lesser))) := by
      rw [← chunk_record, hl]
      generalize e.axis = D at hrec
      rw [hrec]; rfl
    rw [this]; rfl
  · show e.material = (if f.value (worldPos origin step (chunkPoint n k.coord e.lesser)) ≤ 0 then
      vertexMaterial f (worldPos origin step (chunkPoint n k.coord e.lesser)) else
      vertexMaterial f (worldPos origin step (edgeEnd e.axis (chunkPoint n k.coord e.lesser))))
    rw [hl, ← chunk_edgeEnd]
    generalize e.axis = D at hrec ⊢
    rw [hrec]; rfl

end Exact

/-! ### A world of two chunks -/

/-- A ball around the centre of the common face of the chunks (0, 0, 0) and (1, 0, 0) of four cells per side. -/
def seamField : ScalarField ℚ where
  value q := (q.x - 2) * (q.x - 2) + q.y * q.y + q.z * q.z - 2
  grad q := ⟨2 * (q.x - 2), 2 * q.y, 2 * q.z⟩
  material _ _ := .Stone

theorem seam_proper : ProperField seamField := by
  intro q _
  show Material.Stone ≠ .Empty
  decide

theorem seam_chunk (c : IVec3) : ∃ k : Chunk ℚ, k.coord = c ∧ k.grid.half = 2 ∧
    k.Computed seamField demoSolver id ⟨0, 0, 0⟩ 1 4 := by
  let pos : Vec3 ℚ := worldPos ⟨0, 0, 0⟩ (((4 : Nat) : Int) * 1 : ℚ) c
  obtain ⟨g, hg, hs, hh, hp, ht⟩ : ∃ g : Grid ℚ, Grid.mk' 4 pos 1 = .ok g ∧ g.size = 4 ∧ g.half = 2 ∧ g.globalPos = pos ∧
    g.step = 1 := ⟨_, rfl, rfl, rfl, rfl, rfl⟩
  have hr : g.Reachable := .mk hg
  obtain ⟨g', e, ⟨h1, h2, -, -⟩, -⟩ := C06_fill_materials hr seamField demoSolver
  obtain ⟨r, hres, -⟩ := C15_valid (C07_filled hr seam_proper e) id
  exact ⟨⟨c, g', r⟩, rfl, h2.trans hh, g, hr, hs, ht, hp, e, hres⟩

/-- The hypotheses of C76 hold for a world of two chunks with a ball around the middle of their common face; the surface
crosses the plane between them. -/
example : ∃ chunks : List (Chunk ℚ), (∀ k ∈ chunks, k.Computed seamField demoSolver id ⟨0, 0, 0⟩ 1 4) ∧
    (chunks.map Chunk.coord).Nodup ∧ chunks.length = 2 ∧
    (∀ E F, (chunks.flatMap fun k => k.worldSides 4).count (E, F) = (chunks.flatMap fun k => k.worldSides 4).count (F, E)) ∧
    Crosses seamField (worldPos ⟨0, 0, 0⟩ 1) .Z ⟨2, 0, 1⟩ := by
  obtain ⟨k, hc, hh, hk⟩ := seam_chunk ⟨0, 0, 0⟩
  obtain ⟨k', hc', hh', hk'⟩ := seam_chunk ⟨1, 0, 0⟩
  have hall : ∀ x ∈ [k, k'], x.Computed seamField demoSolver id ⟨0, 0, 0⟩ 1 4 := by
    intro x hx
    rcases List.mem_pair.1 hx with rfl | rfl
    · exact hk
    · exact hk'
  have hnd : ([k, k'].map Chunk.coord).Nodup := by
    simp [hc, hc']
  have hcov : ∀ P, CellCovered 4 [k, k'] P ↔ -2 ≤ P.x ∧ P.x < 6 ∧ -2 ≤ P.y ∧ P.y < 2 ∧ -2 ≤ P.z ∧ P.z < 2 := by
    intro P
    have m1 : k.grid.maxCoord = 2 := hh
    have m2 : k'.grid.maxCoord = 2 := hh'
    constructor
    · rintro ⟨x, hx, Q, hQ, rfl⟩
      rcases List.mem_pair.1 hx with rfl | rfl
      · rw [m1, cellIn_iff] at hQ
        rw [hc]
        simp only [chunkPoint, shift]
        omega
      · rw [m2, cellIn_iff] at hQ
        rw [hc']
        simp only [chunkPoint, shift]
        omega
    · intro h
      by_cases hx : P.x < 2
      · refine ⟨k, by simp, ⟨P.x, P.y, P.z⟩, ?_, ?_⟩
        · rw [m1, cellIn_iff]; dsimp only; omega
        · rw [hc]; simp [chunkPoint, shift]
      · refine ⟨k', by simp, ⟨P.x - 4, P.y, P.z⟩, ?_, ?_⟩
        · rw [m2, cellIn_iff]; dsimp only; omega
        · rw [hc']; simp [chunkPoint, shift]
  refine ⟨[k, k'], hall, hnd, rfl, ?_, ?_⟩
  · refine C76_watertight seam_proper hall hnd ?_
    intro P Q hP hQ p hp hq
    rw [hcov] at hP hQ
    have hb : p.x ≤ -2 ∨ 6 ≤ p.x ∨ p.y ≤ -2 ∨ 2 ≤ p.y ∨ p.z ≤ -2 ∨ 2 ≤ p.z := by
      have h1 : ∀ R : IVec3, p ∈ cellVertices R → (R.x ≤ p.x ∧ p.x ≤ R.x + 1) ∧ (R.y ≤ p.y ∧ p.y ≤ R.y + 1) ∧
          (R.z ≤ p.z ∧ p.z ≤ R.z + 1) := by
        intro R hR
        simp only [cellVertices, shift, List.mem_cons, List.not_mem_nil, or_false] at hR
        rcases hR with rfl | rfl | rfl | rfl | rfl | rfl | rfl | rfl <;> (try dsimp only) <;> omega
      have a := h1 P hp
      have b := h1 Q hq
      omega
    show (0 : ℚ) < ((p.x : ℚ) * 1 + 0 - 2) * ((p.x : ℚ) * 1 + 0 - 2) + ((p.y : ℚ) * 1 + 0) * ((p.y : ℚ) * 1 + 0) +
      ((p.z : ℚ) * 1 + 0) * ((p.z : ℚ) * 1 + 0) - 2
    have hint : (2 : Int) < (p.x - 2) * (p.x - 2) + p.y * p.y + p.z * p.z := by
      rcases hb with h | h | h | h | h | h <;> nlinarith [mul_self_nonneg (p.x - 2), mul_self_nonneg p.y, mul_self_nonneg p.z]
    have : ((2 : Int) : ℚ) < (((p.x - 2) * (p.x - 2) + p.y * p.y + p.z * p.z : Int) : ℚ) := by exact_mod_cast hint
    push_cast at this
    linarith
  · norm_num [Crosses, seamField, worldPos, edgeEnd, shift]

end Isomesh
