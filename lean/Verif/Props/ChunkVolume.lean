import Verif.Props.Volume
import Verif.Props.Chunks
import Verif.Spec.ChunkVolume

/-! C89: the volume enclosed by the meshes of all chunks of a world together. -/

namespace Isomesh
open Spec

section
variable {K : Type} [Field K] [LinearOrder K] [IsStrictOrderedRing K]

/-- Telescoping over any finite set of cells: what crosses a face between two cells of the set cancels. -/
theorem sum_tele (S : Finset IVec3) (a : Axis) (F : IVec3 → K)
    (hin : ∀ P ∈ S, (∀ Q ∈ S, edgeEnd a Q ≠ P) → F P = 0)
    (hout : ∀ P ∈ S, edgeEnd a P ∉ S → F (edgeEnd a P) = 0) :
    ∑ P ∈ S, (F (edgeEnd a P) - F P) = 0 := by
  classical
  have hinj : ∀ P Q : IVec3, edgeEnd a P = edgeEnd a Q → P = Q := by
    rintro ⟨x, y, z⟩ ⟨x', y', z'⟩ e
    cases a <;> simp only [edgeEnd, shift, IVec3.mk.injEq] at e ⊢ <;> omega
  have e1 : ∑ P ∈ S, F (edgeEnd a P) = ∑ P ∈ S.image (edgeEnd a), F P := by
    rw [Finset.sum_image fun P _ Q _ e => hinj P Q e]
  rw [Finset.sum_sub_distrib, e1]
  have h1 : ∑ P ∈ S.image (edgeEnd a), F P = ∑ P ∈ S.image (edgeEnd a) ∩ S, F P := by
    symm
    refine Finset.sum_subset Finset.inter_subset_left fun P hP hn => ?_
    obtain ⟨Q, hQ, rfl⟩ := Finset.mem_image.1 hP
    exact hout Q hQ fun hS => hn (Finset.mem_inter.2 ⟨hP, hS⟩)
  have h2 : ∑ P ∈ S, F P = ∑ P ∈ S.image (edgeEnd a) ∩ S, F P := by
    symm
    refine Finset.sum_subset Finset.inter_subset_right fun P hP hn => ?_
    exact hin P hP fun Q hQ e => hn (Finset.mem_inter.2 ⟨Finset.mem_image.2 ⟨Q, hQ, e⟩, hP⟩)
  rw [h1, h2, sub_self]

/-- The face between two neighbouring cells belongs to both. -/
theorem face_in_cells (a : Axis) (P : IVec3) {v : IVec3} (hv : v ∈ faceVertices a (edgeEnd a P)) :
    v ∈ cellVertices P ∧ v ∈ cellVertices (edgeEnd a P) := by
  obtain ⟨x, y, z⟩ := P
  cases a <;> simp only [faceVertices, edgeEnd, shift, cellVertices, List.mem_cons, List.not_mem_nil, or_false, add_zero] at hv ⊢ <;>
    rcases hv with rfl | rfl | rfl | rfl <;> simp

/-- The total over a finite set of cells whose outer faces are empty. -/
theorem latSum_set (s : IVec3 → Bool) (τ : LEdge → K) (sc : K) (c : Vec3 K) (S : Finset IVec3)
    (hs : ∀ P Q, P ∈ S → Q ∉ S → ∀ v ∈ cellVertices P, v ∈ cellVertices Q → s v = false) :
    ∑ P ∈ S, latSum s τ sc c P = sc ^ 3 * ∑ P ∈ S, latVol s τ P := by
  have ht : ∀ a, ∑ P ∈ S, (latFlux s τ sc c a (edgeEnd a P) - latFlux s τ sc c a P) = 0 := by
    intro a
    refine sum_tele S a _ (fun P hP hn => ?_) (fun P hP hn => ?_)
    · obtain ⟨Q, hQ⟩ : ∃ Q, edgeEnd a Q = P := by
        obtain ⟨x, y, z⟩ := P
        cases a
        · exact ⟨⟨x - 1, y, z⟩, by simp [edgeEnd, shift]⟩
        · exact ⟨⟨x, y - 1, z⟩, by simp [edgeEnd, shift]⟩
        · exact ⟨⟨x, y, z - 1⟩, by simp [edgeEnd, shift]⟩
      have hQS : Q ∉ S := fun h => hn Q h hQ
      unfold latFlux
      rw [loFace_empty, mul_zero]
      intro v hv
      rw [← hQ] at hv hP
      obtain ⟨h1, h2⟩ := face_in_cells a Q hv
      exact hs _ _ hP hQS v h2 h1
    · unfold latFlux
      rw [loFace_empty, mul_zero]
      intro v hv
      obtain ⟨h1, h2⟩ := face_in_cells a P hv
      exact hs _ _ hP hn v h1 h2
  rw [Finset.sum_congr rfl fun P _ => lat_cell s τ sc c P, Finset.sum_sub_distrib, Finset.sum_add_distrib, Finset.sum_add_distrib,
    ht, ht, ht, Finset.mul_sum]
  ring

variable {f : ScalarField K} {sv : ZeroFinder K} {nrm : Vec3 K → Vec3 K} {origin : Vec3 K} {step : K} {n : Nat}

/-- Where the surface crosses an edge of the world's lattice, as a fraction of the edge. -/
noncomputable def worldTau (f : ScalarField K) (sv : ZeroFinder K) (origin : Vec3 K) (step : K) (E : LEdge) : K :=
  open Classical in
  if Crosses f (worldPos origin step) E.axis E.at_ then (edgeRecord f sv (worldPos origin step) step E.axis E.at_).offset else 0

/-- The cells of a chunk, as cells of the world's lattice. -/
def chunkCells (n : Nat) (k : Chunk K) : Finset IVec3 :=
  (boxCells n ⟨-k.grid.half, -k.grid.half, -k.grid.half⟩).image (chunkPoint n k.coord)

omit [Field K] [LinearOrder K] [IsStrictOrderedRing K] in
theorem mem_chunkCells {k : Chunk K} (hn : (n : Int) = 2 * k.grid.half) {P : IVec3} : P ∈ chunkCells n k ↔ k.HasCell n P := by
  unfold chunkCells Chunk.HasCell
  rw [Finset.mem_image]
  refine exists_congr fun Q => ?_
  rw [mem_boxCells hn]
  exact and_congr Iff.rfl eq_comm

/-- The volume of one chunk's mesh, as a sum over cells of the world. -/
theorem chunk_volume (hf : ProperField f) {k : Chunk K} (hk : k.Computed f sv nrm origin step n) :
    6 * enclosedVolume k.result =
      ∑ P ∈ chunkCells n k, latSum (fun p => decide (f.value (worldPos origin step p) ≤ 0)) (worldTau f sv origin step) step origin P := by
  have hok := computed_ok hf hk
  obtain ⟨g, hg, hsz, hst, hpos, hfill, hres⟩ := hk
  have hF := hok.filled
  have hn : (n : Int) = 2 * k.grid.half := by rw [← hok.size]; exact hF.wf.half_eq
  obtain ⟨g', hfill', ⟨-, -, hpos', hst'⟩, -⟩ := C06_fill_materials hg f sv
  rw [hfill] at hfill'; cases hfill'
  rw [mesh_volume hF nrm hres hn, boxSum_eq]
  unfold chunkCells
  rw [Finset.sum_image fun P _ Q _ e => chunkPoint_inj e]
  refine Finset.sum_congr rfl fun Q hQ => ?_
  have hQ' : CellIn k.grid.maxCoord Q := (mem_boxCells hn).1 hQ
  have hmask : volMask (solidAt k.grid) Q = volMask (fun p => decide (f.value (worldPos origin step p) ≤ 0)) (chunkPoint n k.coord Q) :=
    chunk_mask hok hQ'
  have hfun : worldPos g.globalPos g.step = fun p => worldPos origin step (chunkPoint n k.coord p) := by
    funext p
    rw [hpos, hst, worldPos_chunk]
  have hpoint : ∀ i < 12, (vid k.grid Q i).isSome →
      latPoint (edgeTau k.grid) k.grid.step k.grid.globalPos Q i = latPoint (worldTau f sv origin step) step origin (chunkPoint n k.coord Q) i := by
    intro i hi hs
    obtain ⟨v, hv⟩ := Option.isSome_iff_exists.1 hs
    obtain ⟨e, he, hl⟩ := (edgeIdx_eq_some hF).1 hv
    have hmem := (mem_edgeList hF).1 (List.mem_of_getElem? he)
    obtain ⟨p, -, hcr, hrec⟩ := ((C07_fill_edges hg hfill e.axis).1 e).1 hmem
    have hlp : e.lesser = p := by rw [hrec]; rfl
    have ht : volT (edgeTau k.grid) Q i = e.offset := by
      unfold volT edgeTau
      have hv' : edgeIdx k.grid (slotEdge Q i) = some v := hv
      rw [hv', Option.bind_some, he]
    have hE : slotEdge (chunkPoint n k.coord Q) i = ⟨e.axis, chunkPoint n k.coord p⟩ := by
      rw [← chunkEdge_slot, ← hl, ← hlp]; rfl
    have hw : volT (worldTau f sv origin step) (chunkPoint n k.coord Q) i = e.offset := by
      unfold volT worldTau
      rw [hE]
      dsimp only
      rw [hfun] at hcr hrec
      have hcr' : Crosses f (worldPos origin step) e.axis (chunkPoint n k.coord p) := by
        unfold Crosses at hcr ⊢
        dsimp only at hcr
        rwa [chunk_edgeEnd] at hcr
      rw [if_pos hcr']
      generalize e.axis = D at hrec
      rw [hrec]
      unfold edgeRecord
      dsimp only
      rw [chunk_record, hst]
    unfold latPoint
    rw [ht, hw, hst', hpos', hpos, hst]
    simp only [worldPos, chunkPoint, shift]
    ext <;> push_cast <;> ring
  unfold latSum
  rw [← hmask]
  refine congrArg List.sum (List.map_congr_left fun t ht => ?_)
  obtain ⟨l1, l2, l3⟩ := tri_lt (volMask_lt _ Q) ht
  obtain ⟨x, y, z, hx, hy, hz, -⟩ := cellTriangles_ok hF hQ' ht
  rw [hpoint _ l1 (by rw [hx]; rfl), hpoint _ l2 (by rw [hy]; rfl), hpoint _ l3 (by rw [hz]; rfl)]

/-- The cells of all chunks. -/
def allCells (n : Nat) (chunks : List (Chunk K)) : Finset IVec3 := chunks.foldr (fun k S => chunkCells n k ∪ S) ∅

theorem allCells_spec {chunks : List (Chunk K)} (hk : ∀ k ∈ chunks, (n : Int) = 2 * k.grid.half) {P : IVec3} :
    P ∈ allCells n chunks ↔ CellCovered n chunks P := by
  induction chunks with
  | nil => simp [allCells, CellCovered]
  | cons k L ih =>
    have ih := ih fun x hx => hk x (List.mem_cons_of_mem _ hx)
    unfold CellCovered at ih ⊢
    simp only [List.mem_cons, or_and_right, exists_or, exists_eq_left]
    rw [← ih, ← mem_chunkCells (hk k List.mem_cons_self)]
    exact Finset.mem_union

theorem total_volume (hf : ProperField f) {chunks : List (Chunk K)} (hk : ∀ k ∈ chunks, k.Computed f sv nrm origin step n)
    (hd : (chunks.map Chunk.coord).Nodup) :
    6 * totalVolume chunks = ∑ P ∈ allCells n chunks,
      latSum (fun p => decide (f.value (worldPos origin step p) ≤ 0)) (worldTau f sv origin step) step origin P := by
  unfold totalVolume
  induction chunks with
  | nil => simp [allCells]
  | cons k L ih =>
    have hkL : ∀ x ∈ L, x.Computed f sv nrm origin step n := fun x hx => hk x (List.mem_cons_of_mem _ hx)
    have hhalf : ∀ x ∈ k :: L, (n : Int) = 2 * x.grid.half := fun x hx => by
      have hok := computed_ok hf (hk x hx)
      rw [← hok.size]; exact hok.filled.wf.half_eq
    rw [List.map_cons, List.nodup_cons] at hd
    have hdis : Disjoint (chunkCells n k) (allCells n L) := by
      rw [Finset.disjoint_left]
      intro P h1 h2
      rw [mem_chunkCells (hhalf k List.mem_cons_self)] at h1
      rw [allCells_spec fun x hx => hhalf x (List.mem_cons_of_mem _ hx)] at h2
      obtain ⟨Q, hQ, rfl⟩ := h1
      obtain ⟨k', hm, Q', hQ', e⟩ := h2
      have e1 := hhalf k List.mem_cons_self
      have e2 := hhalf k' (List.mem_cons_of_mem _ hm)
      have hmax : k'.grid.maxCoord = k.grid.maxCoord := by
        show k'.grid.half = k.grid.half
        omega
      rw [hmax] at hQ'
      have := cell_chunk_unique (h := k.grid.maxCoord) e1 hQ hQ' e
      exact hd.1 (by rw [this]; exact List.mem_map_of_mem hm)
    rw [List.map_cons, List.sum_cons, mul_add, ih hkL hd.2, chunk_volume hf (hk k List.mem_cons_self)]
    exact (Finset.sum_union hdis).symm

/-- C89 (cutting): the total volume enclosed by the meshes of a world is the same however the same cells are cut into chunks, of whatever sizes. -/
theorem C89_cut (hf : ProperField f) {chunks chunks' : List (Chunk K)} {n' : Nat}
    (hk : ∀ k ∈ chunks, k.Computed f sv nrm origin step n) (hd : (chunks.map Chunk.coord).Nodup)
    (hk' : ∀ k ∈ chunks', k.Computed f sv nrm origin step n') (hd' : (chunks'.map Chunk.coord).Nodup)
    (hsame : ∀ P, CellCovered n chunks P ↔ CellCovered n' chunks' P) : totalVolume chunks = totalVolume chunks' := by
  have half : ∀ {n : Nat} {L : List (Chunk K)}, (∀ k ∈ L, k.Computed f sv nrm origin step n) → ∀ x ∈ L, (n : Int) = 2 * x.grid.half := by
    intro n L hk x hx
    have hok := computed_ok hf (hk x hx)
    rw [← hok.size]; exact hok.filled.wf.half_eq
  have hS : allCells n chunks = allCells n' chunks' := by
    ext P
    rw [allCells_spec (half hk), allCells_spec (half hk'), hsame]
  have e1 := total_volume hf hk hd
  have e2 := total_volume hf hk' hd'
  rw [hS, ← e2] at e1
  exact mul_left_cancel₀ (by norm_num) e1

end

/-- C89: chunks of one world, filled from one field with a zero finder that stays on the edges and meshed one by one.  If the solid does not
reach the outer surface of the chunks, the volumes that their meshes enclose add up to at least the volume of the cells with all corners in
the solid and at most that of the cells with some corner in it.  (A single chunk's mesh is in general open and its volume has no meaning.) -/
theorem C89_volume {f : ScalarField ℝ} {sv : ZeroFinder ℝ} {nrm : Vec3 ℝ → Vec3 ℝ} {origin : Vec3 ℝ} {step : ℝ} {n : Nat}
    {chunks : List (Chunk ℝ)} (hf : ProperField f) (hstep : 0 < step) (hsv : StaysOnEdges f sv origin step)
    (hk : ∀ k ∈ chunks, k.Computed f sv nrm origin step n) (hd : (chunks.map Chunk.coord).Nodup)
    (hclear : ∀ P Q, CellCovered n chunks P → ¬ CellCovered n chunks Q → ∀ p ∈ cellVertices P, p ∈ cellVertices Q →
      0 < f.value (worldPos origin step p)) :
    (solidCovered f origin step n chunks).ncard * step ^ 3 ≤ totalVolume chunks ∧
    totalVolume chunks ≤ (touchedCovered f origin step n chunks).ncard * step ^ 3 := by
  have hhalf : ∀ x ∈ chunks, (n : Int) = 2 * x.grid.half := fun x hx => by
    have hok := computed_ok hf (hk x hx)
    rw [← hok.size]; exact hok.filled.wf.half_eq
  have key := total_volume hf hk hd
  rw [latSum_set] at key
  swap
  · intro P Q hP hQ v hv hv'
    rw [allCells_spec hhalf] at hP hQ
    have := hclear P Q hP hQ v hv hv'
    simpa using this
  have hτ : ∀ e, 0 ≤ worldTau f sv origin step e ∧ worldTau f sv origin step e ≤ 1 := by
    intro E
    unfold worldTau
    split_ifs with hc
    · exact C07_offset hstep (hsv _ _ hc)
    · exact ⟨le_rfl, zero_le_one⟩
  have h3 : 0 < step ^ 3 := by positivity
  have hb := fun P => latVol_bounds (fun p => decide (f.value (worldPos origin step p) ≤ 0)) (worldTau f sv origin step) hτ P
  have hlo : 6 * ((solidCovered f origin step n chunks).ncard : ℝ) ≤
      ∑ P ∈ allCells n chunks, latVol (fun p => decide (f.value (worldPos origin step p) ≤ 0)) (worldTau f sv origin step) P := by
    refine le_trans (le_of_eq ?_) (Finset.sum_le_sum fun P _ => (hb P).1)
    refine (count_sum _ _ fun P => ?_).symm
    rw [allCells_spec hhalf]
    unfold solidCovered
    simp
  have hhi : ∑ P ∈ allCells n chunks, latVol (fun p => decide (f.value (worldPos origin step p) ≤ 0)) (worldTau f sv origin step) P ≤
      6 * ((touchedCovered f origin step n chunks).ncard : ℝ) := by
    refine le_trans (Finset.sum_le_sum fun P _ => (hb P).2) (le_of_eq ?_)
    refine count_sum _ _ fun P => ?_
    rw [allCells_spec hhalf]
    unfold touchedCovered
    simp
  have e1 := mul_le_mul_of_nonneg_left hlo h3.le
  have e2 := mul_le_mul_of_nonneg_left hhi h3.le
  rw [← key] at e1 e2
  constructor <;> linarith

/-- A cube of side 2 around the middle of the common face of the chunks (0, 0, 0) and (1, 0, 0) of four cells per side. -/
noncomputable def seamBox : ScalarField ℝ :=
  ⟨fun q => max (max |q.x - 2| |q.y|) |q.z| - 1, fun _ => ⟨1, 0, 0⟩, fun _ _ => .Stone⟩

theorem seamBox_chunk (c : IVec3) : ∃ k : Chunk ℝ, k.coord = c ∧ k.grid.half = 2 ∧
    k.Computed seamBox (bisectionFinder 4) id ⟨0, 0, 0⟩ 1 4 := by
  let pos : Vec3 ℝ := worldPos ⟨0, 0, 0⟩ (((4 : Nat) : Int) * 1 : ℝ) c
  obtain ⟨g, hg, hs, hh, hp, ht⟩ : ∃ g : Grid ℝ, Grid.mk' 4 pos 1 = .ok g ∧ g.size = 4 ∧ g.half = 2 ∧ g.globalPos = pos ∧
    g.step = 1 := ⟨_, rfl, rfl, rfl, rfl, rfl⟩
  have hr : g.Reachable := .mk hg
  have hprop : ProperField seamBox := by intro q _; simp [seamBox]
  obtain ⟨g', e, ⟨h1, h2, -, -⟩, -⟩ := C06_fill_materials hr seamBox (bisectionFinder 4)
  obtain ⟨r, hres, -⟩ := C15_valid (C07_filled hr hprop e) id
  exact ⟨⟨c, g', r⟩, rfl, h2.trans hh, g, hr, hs, ht, hp, e, hres⟩

/-- Non-vacuity of C89: the cube lies across the seam of two chunks, and the two meshes together enclose a volume of at least 1. -/
example : ∃ chunks : List (Chunk ℝ), (∀ k ∈ chunks, k.Computed seamBox (bisectionFinder 4) id ⟨0, 0, 0⟩ 1 4) ∧
    (chunks.map Chunk.coord).Nodup ∧ chunks.length = 2 ∧
    (∀ P Q, CellCovered 4 chunks P → ¬ CellCovered 4 chunks Q → ∀ p ∈ cellVertices P, p ∈ cellVertices Q →
      0 < seamBox.value (worldPos ⟨0, 0, 0⟩ 1 p)) ∧ 1 ≤ totalVolume chunks := by
  obtain ⟨k, hc, hh, hk⟩ := seamBox_chunk ⟨0, 0, 0⟩
  obtain ⟨k', hc', hh', hk'⟩ := seamBox_chunk ⟨1, 0, 0⟩
  have hall : ∀ x ∈ [k, k'], x.Computed seamBox (bisectionFinder 4) id ⟨0, 0, 0⟩ 1 4 := by
    intro x hx
    rcases List.mem_pair.1 hx with rfl | rfl
    · exact hk
    · exact hk'
  have hnd : ([k, k'].map Chunk.coord).Nodup := by simp [hc, hc']
  have hcov : ∀ P, CellCovered 4 [k, k'] P ↔ -2 ≤ P.x ∧ P.x < 6 ∧ -2 ≤ P.y ∧ P.y < 2 ∧ -2 ≤ P.z ∧ P.z < 2 := by
    intro P
    have m1 : k.grid.maxCoord = 2 := hh
    have m2 : k'.grid.maxCoord = 2 := hh'
    constructor
    · rintro ⟨x, hx, Q, hQ, rfl⟩
      rcases List.mem_pair.1 hx with rfl | rfl
      · rw [m1, cellIn_iff] at hQ
        rw [hc]
        simp only [chunkPoint, shift]
        omega
      · rw [m2, cellIn_iff] at hQ
        rw [hc']
        simp only [chunkPoint, shift]
        omega
    · intro h
      by_cases hx : P.x < 2
      · refine ⟨k, by simp, ⟨P.x, P.y, P.z⟩, ?_, ?_⟩
        · rw [m1, cellIn_iff]; dsimp only; omega
        · rw [hc]; simp [chunkPoint, shift]
      · refine ⟨k', by simp, ⟨P.x - 4, P.y, P.z⟩, ?_, ?_⟩
        · rw [m2, cellIn_iff]; dsimp only; omega
        · rw [hc']; simp [chunkPoint, shift]
  have hval : ∀ p : IVec3, seamBox.value (worldPos ⟨0, 0, 0⟩ 1 p) = ((max (max |p.x - 2| |p.y|) |p.z| - 1 : Int) : ℝ) := by
    intro p
    simp only [seamBox, worldPos]
    push_cast
    simp
  have hclear : ∀ P Q, CellCovered 4 [k, k'] P → ¬ CellCovered 4 [k, k'] Q → ∀ p ∈ cellVertices P, p ∈ cellVertices Q →
      0 < seamBox.value (worldPos ⟨0, 0, 0⟩ 1 p) := by
    intro P Q hP hQ p hp hq
    rw [hcov] at hP hQ
    have h1 : ∀ R : IVec3, p ∈ cellVertices R → (R.x ≤ p.x ∧ p.x ≤ R.x + 1) ∧ (R.y ≤ p.y ∧ p.y ≤ R.y + 1) ∧
        (R.z ≤ p.z ∧ p.z ≤ R.z + 1) := by
      intro R hR
      simp only [cellVertices, shift, List.mem_cons, List.not_mem_nil, or_false] at hR
      rcases hR with rfl | rfl | rfl | rfl | rfl | rfl | rfl | rfl <;> (try dsimp only) <;> omega
    have a := h1 P hp
    have b := h1 Q hq
    rw [hval]
    have : 0 < max (max |p.x - 2| |p.y|) |p.z| - 1 := by
      have h1 := le_abs_self (p.x - 2)
      have h2 := neg_le_abs (p.x - 2)
      have h3 := le_abs_self p.y
      have h4 := neg_le_abs p.y
      have h5 := le_abs_self p.z
      have h6 := neg_le_abs p.z
      generalize |p.x - 2| = u at *
      generalize |p.y| = v at *
      generalize |p.z| = w at *
      omega
    exact_mod_cast this
  refine ⟨[k, k'], hall, hnd, rfl, hclear, ?_⟩
  have hprop : ProperField seamBox := by intro q _; simp [seamBox]
  refine le_trans ?_ (C89_volume hprop one_pos (C69_solvers seamBox 0 4 ⟨0, 0, 0⟩ one_pos).1 hall hnd hclear).1
  rw [one_pow, mul_one]
  have hfin : (solidCovered seamBox ⟨0, 0, 0⟩ 1 4 [k, k']).Finite :=
    (allCells 4 [k, k']).finite_toSet.subset fun P hP => (allCells_spec (fun x hx => by
      rcases List.mem_pair.1 hx with rfl | rfl
      · rw [hh]; rfl
      · rw [hh']; rfl)).2 hP.1
  have hmem : (⟨1, 0, 0⟩ : IVec3) ∈ solidCovered seamBox ⟨0, 0, 0⟩ 1 4 [k, k'] := by
    refine ⟨(hcov _).2 (by decide), fun v hv => ?_⟩
    rw [hval]
    simp only [cellVertices, shift, List.mem_cons, List.not_mem_nil, or_false] at hv
    rcases hv with rfl | rfl | rfl | rfl | rfl | rfl | rfl | rfl <;> norm_num
  have := (Set.ncard_pos hfin).2 ⟨_, hmem⟩
  exact_mod_cast this

end Isomesh
