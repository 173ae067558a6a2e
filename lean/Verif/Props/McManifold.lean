import Verif.Props.MarchingCubes
import Verif.Spec.Manifold

/-! C72: marching cubes meshes have no pinched vertices. -/

set_option linter.unusedSectionVars false

namespace Isomesh
open Spec

/-! ### The triangle table -/

def hasCorner (t : Nat × Nat × Nat) (v : Nat) : Bool := v == t.1 || v == t.2.1 || v == t.2.2

theorem hasCorner_iff {t : Nat × Nat × Nat} {v : Nat} : hasCorner t v = true ↔ HasCorner t v := by
  simp [hasCorner, HasCorner, or_assoc]

def shareAt (i : Nat) (s t : Nat × Nat × Nat) : Bool :=
  hasCorner s i && hasCorner t i && [s.1, s.2.1, s.2.2].any fun w => w != i && hasCorner t w

theorem shareAt_spec {i : Nat} {s t : Nat × Nat × Nat} (h : shareAt i s t = true) : ShareSideAt i s t := by
  unfold shareAt at h
  simp only [Bool.and_eq_true, List.any_eq_true, bne_iff_ne, hasCorner_iff] at h
  obtain ⟨⟨h1, h2⟩, w, hw, h3, h4⟩ := h
  refine ⟨h1, h2, w, h3, ?_, h4⟩
  simpa [HasCorner] using hw

/-- Add the triangles sharing a side at `i` with a triangle reached already. -/
def grow (T : List (Nat × Nat × Nat)) (i : Nat) (acc : List (Nat × Nat × Nat)) : List (Nat × Nat × Nat) :=
  acc ++ T.filter fun t => acc.any fun s => shareAt i s t

/-- Table check: all triangles of a pattern with corner `i` are reached from the first of them. -/
def checkFan : Bool :=
  (List.range 256).all fun m => (List.range 12).all fun i =>
    match (mcTriangles m).filter (fun t => hasCorner t i) with
    | [] => true
    | t0 :: T => T.all fun t => (grow (t0 :: T) i (grow (t0 :: T) i (grow (t0 :: T) i (grow (t0 :: T) i [t0])))).contains t

theorem checkFan_true : checkFan = true := by decide +kernel

/-- Table check: a crossing edge has a triangle side on each of the faces it belongs to. -/
def checkSeg : Bool :=
  (List.range 256).all fun m => (List.range 12).all fun i => !(Spec.crosses m i) ||
    (List.range 6).all fun f => !(inFace f i) ||
      (sides (mcTriangles m)).any fun s => (s.1 == i && inFace f s.2) || (s.2 == i && inFace f s.1)

theorem checkSeg_true : checkSeg = true := by decide +kernel

theorem grow_reach {T : List (Nat × Nat × Nat)} {i : Nat} {t0 : Nat × Nat × Nat} {acc : List (Nat × Nat × Nat)}
    (hT : ∀ t ∈ acc, t ∈ T)
    (h : ∀ t ∈ acc, Relation.ReflTransGen (fun a b => a ∈ T ∧ b ∈ T ∧ ShareSideAt i a b) t0 t) :
    (∀ t ∈ grow T i acc, t ∈ T) ∧
    ∀ t ∈ grow T i acc, Relation.ReflTransGen (fun a b => a ∈ T ∧ b ∈ T ∧ ShareSideAt i a b) t0 t := by
  unfold grow
  refine ⟨fun t ht => ?_, fun t ht => ?_⟩ <;> rcases List.mem_append.1 ht with ht | ht
  · exact hT t ht
  · exact (List.mem_filter.1 ht).1
  · exact h t ht
  · obtain ⟨h1, h2⟩ := List.mem_filter.1 ht
    obtain ⟨s, hs, hst⟩ := List.any_eq_true.1 h2
    exact (h s hs).tail ⟨hT s hs, h1, shareAt_spec hst⟩

theorem shareSideAt_symm {v : Nat} {s t : Nat × Nat × Nat} (h : ShareSideAt v s t) : ShareSideAt v t s := by
  obtain ⟨h1, h2, w, h3, h4, h5⟩ := h
  exact ⟨h2, h1, w, h3, h5, h4⟩

theorem fan_symm {T : List (Nat × Nat × Nat)} {v : Nat} {s t : Nat × Nat × Nat}
    (h : Relation.ReflTransGen (fun a b => a ∈ T ∧ b ∈ T ∧ ShareSideAt v a b) s t) :
    Relation.ReflTransGen (fun a b => a ∈ T ∧ b ∈ T ∧ ShareSideAt v a b) t s := by
  induction h with
  | refl => exact .refl
  | tail _ hbc ih => exact Relation.ReflTransGen.head ⟨hbc.2.1, hbc.1, shareSideAt_symm hbc.2.2⟩ ih

/-- The triangles of one pattern around one cell edge are connected. -/
theorem fan_table {m i : Nat} (hm : m < 256) (hi : i < 12) {s t : Nat × Nat × Nat} (hs : s ∈ mcTriangles m)
    (ht : t ∈ mcTriangles m) (ci : HasCorner s i) (cj : HasCorner t i) :
    Relation.ReflTransGen (fun a b => a ∈ mcTriangles m ∧ b ∈ mcTriangles m ∧ ShareSideAt i a b) s t := by
  have h := checkFan_true
  unfold checkFan at h
  have h := List.all_eq_true.1 (List.all_eq_true.1 h m (List.mem_range.2 hm)) i (List.mem_range.2 hi)
  have ms : s ∈ (mcTriangles m).filter (fun t => hasCorner t i) := List.mem_filter.2 ⟨hs, hasCorner_iff.2 ci⟩
  have mt : t ∈ (mcTriangles m).filter (fun t => hasCorner t i) := List.mem_filter.2 ⟨ht, hasCorner_iff.2 cj⟩
  have hsub : ∀ x ∈ (mcTriangles m).filter (fun t => hasCorner t i), x ∈ mcTriangles m :=
    fun x hx => (List.mem_filter.1 hx).1
  generalize (mcTriangles m).filter (fun t => hasCorner t i) = F at h ms mt hsub
  cases F with
  | nil => exact absurd ms (by simp)
  | cons t0 T =>
    dsimp only at h
    have r0 : (∀ t ∈ [t0], t ∈ t0 :: T) ∧ ∀ t ∈ [t0],
        Relation.ReflTransGen (fun a b => a ∈ t0 :: T ∧ b ∈ t0 :: T ∧ ShareSideAt i a b) t0 t := by
      refine ⟨fun t ht => ?_, fun t ht => ?_⟩ <;> rw [List.mem_singleton.1 ht]
      exact List.mem_cons_self
    have r1 := grow_reach r0.1 r0.2
    have r2 := grow_reach r1.1 r1.2
    have r3 := grow_reach r2.1 r2.2
    have r4 := grow_reach r3.1 r3.2
    have key : ∀ x ∈ t0 :: T, Relation.ReflTransGen
        (fun a b => a ∈ mcTriangles m ∧ b ∈ mcTriangles m ∧ ShareSideAt i a b) t0 x := by
      intro x hx
      rcases List.mem_cons.1 hx with rfl | hx
      · exact .refl
      · have := List.all_eq_true.1 h x hx
        rw [List.contains_iff_mem] at this
        exact Relation.ReflTransGen.mono (fun a b hab => ⟨hsub a hab.1, hsub b hab.2.1, hab.2.2⟩) _ _ (r4.2 x this)
    exact (fan_symm (key s ms)).trans (key t mt)

theorem seg_table {m i f : Nat} (hm : m < 256) (hi : i < 12) (hf : f < 6) (hc : Spec.crosses m i = true)
    (hif : inFace f i = true) : ∃ j, inFace f j = true ∧
      ((i, j) ∈ sides (mcTriangles m) ∨ (j, i) ∈ sides (mcTriangles m)) := by
  have h := checkSeg_true
  unfold checkSeg at h
  have h := List.all_eq_true.1 (List.all_eq_true.1 h m (List.mem_range.2 hm)) i (List.mem_range.2 hi)
  simp only [hc, Bool.not_true, Bool.false_or] at h
  have h := List.all_eq_true.1 h f (List.mem_range.2 hf)
  simp only [hif, Bool.not_true, Bool.false_or] at h
  obtain ⟨⟨a, b⟩, hs, h1⟩ := List.any_eq_true.1 h
  simp only [Bool.or_eq_true, Bool.and_eq_true, beq_iff_eq] at h1
  rcases h1 with ⟨rfl, h2⟩ | ⟨rfl, h2⟩
  · exact ⟨b, h2, Or.inl hs⟩
  · exact ⟨a, h2, Or.inr hs⟩

set_option synthInstance.maxSize 4096 in
set_option synthInstance.maxHeartbeats 400000 in
/-- Two places of one edge in two cells: same cell, cells with a common face through the edge, or two such steps. -/
theorem places_table : ∀ i < 12, ∀ i' < 12, slotAxis i = slotAxis i' → i = i' ∨
    (∃ f < 6, inFace f i = true ∧ i' = oppSlot f i) ∨
    ∃ f < 6, ∃ f' < 6, inFace f i = true ∧ inFace f' (oppSlot f i) = true ∧ faceAxis f ≠ faceAxis f' ∧
      i' = oppSlot f' (oppSlot f i) := by decide +kernel

theorem mem_sides_of_corners {T : List (Nat × Nat × Nat)} {a b : Nat} (h : (a, b) ∈ sides T) :
    ∃ t ∈ T, HasCorner t a ∧ HasCorner t b := by
  unfold sides at h
  obtain ⟨t, ht, h⟩ := List.mem_flatMap.1 h
  refine ⟨t, ht, ?_⟩
  simp only [List.mem_cons, Prod.mk.injEq, List.not_mem_nil, or_false] at h
  rcases h with ⟨rfl, rfl⟩ | ⟨rfl, rfl⟩ | ⟨rfl, rfl⟩ <;> simp [HasCorner]

theorem corner_lt {m : Nat} (hm : m < 256) {t : Nat × Nat × Nat} (ht : t ∈ mcTriangles m) {i : Nat}
    (hi : HasCorner t i) : i < 12 := by
  have : ∃ j, (i, j) ∈ sides (mcTriangles m) := by
    unfold sides
    rcases hi with rfl | rfl | rfl
    · exact ⟨t.2.1, List.mem_flatMap.2 ⟨t, ht, by simp⟩⟩
    · exact ⟨t.2.2, List.mem_flatMap.2 ⟨t, ht, by simp⟩⟩
    · exact ⟨t.1, List.mem_flatMap.2 ⟨t, ht, by simp⟩⟩
  obtain ⟨j, hj⟩ := this
  exact (sides_table hm hj).1

/-! ### The mesh -/

variable {K : Type} [Add K] [Sub K] [Mul K] [Div K] [Zero K] [IntCast K] [LE K] [LT K] [DecidableLE K] [DecidableLT K]

theorem corner_vid {g : Grid K} (h : Filled g) {P : IVec3} (hP : CellIn g.maxCoord P) {t : Nat × Nat × Nat}
    (ht : t ∈ mcTriangles (cellMask g P)) {v : Nat}
    (hv : HasCorner ((vid g P t.1).getD 0, (vid g P t.2.1).getD 0, (vid g P t.2.2).getD 0) v) :
    ∃ i < 12, HasCorner t i ∧ vid g P i = some v := by
  obtain ⟨a, b, c, ha, hb, hc, -⟩ := cellTriangles_ok h hP ht
  have hm := cellMask_lt g P
  have h1 : HasCorner t t.1 := Or.inl rfl
  have h2 : HasCorner t t.2.1 := Or.inr (Or.inl rfl)
  have h3 : HasCorner t t.2.2 := Or.inr (Or.inr rfl)
  simp only [ha, hb, hc, Option.getD_some] at hv
  rcases hv with rfl | rfl | rfl
  · exact ⟨_, corner_lt hm ht h1, h1, ha⟩
  · exact ⟨_, corner_lt hm ht h2, h2, hb⟩
  · exact ⟨_, corner_lt hm ht h3, h3, hc⟩

theorem vid_corner {g : Grid K} {P : IVec3} {t : Nat × Nat × Nat} {i v : Nat} (hi : HasCorner t i)
    (hv : vid g P i = some v) :
    HasCorner ((vid g P t.1).getD 0, (vid g P t.2.1).getD 0, (vid g P t.2.2).getD 0) v := by
  rcases hi with rfl | rfl | rfl
  · left; simp [hv]
  · right; left; simp [hv]
  · right; right; simp [hv]

theorem corner_some {g : Grid K} (h : Filled g) {P : IVec3} (hP : CellIn g.maxCoord P) {t : Nat × Nat × Nat}
    (ht : t ∈ mcTriangles (cellMask g P)) {i : Nat} (hi : HasCorner t i) : ∃ v, vid g P i = some v := by
  obtain ⟨a, b, c, ha, hb, hc, -⟩ := cellTriangles_ok h hP ht
  rcases hi with rfl | rfl | rfl
  · exact ⟨_, ha⟩
  · exact ⟨_, hb⟩
  · exact ⟨_, hc⟩

/-- Inside one cell. -/
theorem cell_link {g : Grid K} (h : Filled g) {P : IVec3} (hP : P ∈ mcCells g) {s t : Nat × Nat × Nat} {v : Nat}
    (hs : s ∈ cellTriangles g P) (ht : t ∈ cellTriangles g P) (cs : HasCorner s v) (ct : HasCorner t v) :
    Relation.ReflTransGen (fun a b => a ∈ (mcCells g).flatMap (cellTriangles g) ∧
      b ∈ (mcCells g).flatMap (cellTriangles g) ∧ ShareSideAt v a b) s t := by
  have hPc := ((mem_mcCells h).1 hP).1
  obtain ⟨s, hs', rfl⟩ := mem_cellTriangles.1 hs
  obtain ⟨t, ht', rfl⟩ := mem_cellTriangles.1 ht
  clear hs ht
  have hs := hs'
  have ht := ht'
  obtain ⟨i, hi, ci, vi⟩ := corner_vid h hPc hs cs
  obtain ⟨j, hj, cj, vj⟩ := corner_vid h hPc ht ct
  obtain rfl := vid_inj h hi hj vi vj
  refine Relation.ReflTransGen.lift
    (fun t : Nat × Nat × Nat => ((vid g P t.1).getD 0, (vid g P t.2.1).getD 0, (vid g P t.2.2).getD 0)) ?_
    _ _ (fan_table (cellMask_lt g P) hi hs ht ci cj)
  rintro a b ⟨ha, hb, ca, cb, w, hw, wa, wb⟩
  refine ⟨List.mem_flatMap.2 ⟨P, hP, mem_cellTriangles.2 ⟨a, ha, rfl⟩⟩,
    List.mem_flatMap.2 ⟨P, hP, mem_cellTriangles.2 ⟨b, hb, rfl⟩⟩, vid_corner ca vi, vid_corner cb vi, ?_⟩
  obtain ⟨u, hu⟩ := corner_some h hPc ha wa
  refine ⟨u, ?_, vid_corner wa hu, vid_corner wb hu⟩
  rintro rfl
  exact hw (vid_inj h (corner_lt (cellMask_lt g P) ha wa) hi hu vi)

theorem vid_across {g : Grid K} {P : IVec3} {f i : Nat} (hf : f < 6) (hi : i < 12) (hif : inFace f i = true) :
    vid g (acrossFace P f) (oppSlot f i) = vid g P i := by
  unfold vid; rw [slotEdge_across hf hi hif]

/-- Across a face. -/
theorem face_link {g : Grid K} (h : Filled g) {P : IVec3} {f i v : Nat} (hP : CellIn g.maxCoord P) (hf : f < 6)
    (hi : i < 12) (hif : inFace f i = true) (vi : vid g P i = some v) :
    ∃ s ∈ cellTriangles g P, ∃ t ∈ cellTriangles g (acrossFace P f), ShareSideAt v s t := by
  have hc : Spec.crosses (cellMask g P) i = true := by rw [← vid_isSome h hP hi, vi]; rfl
  obtain ⟨j, hj, hs⟩ := seg_table (cellMask_lt g P) hi hf hc hif
  have key : ∃ s ∈ mcTriangles (cellMask g P), HasCorner s i ∧ HasCorner s j ∧ j ≠ i ∧ j < 12 ∧
      ∃ t ∈ mcTriangles (cellMask g (acrossFace P f)), HasCorner t (oppSlot f i) ∧ HasCorner t (oppSlot f j) := by
    rcases hs with hs | hs
    · obtain ⟨s, h1, h2, h3⟩ := mem_sides_of_corners hs
      obtain ⟨t, h4, h5, h6⟩ := mem_sides_of_corners (across_sides hf hs hif hj)
      have tb := sides_table (cellMask_lt g P) hs
      exact ⟨s, h1, h2, h3, tb.2.2.1.symm, tb.2.1, t, h4, h6, h5⟩
    · obtain ⟨s, h1, h2, h3⟩ := mem_sides_of_corners hs
      obtain ⟨t, h4, h5, h6⟩ := mem_sides_of_corners (across_sides hf hs hj hif)
      have tb := sides_table (cellMask_lt g P) hs
      exact ⟨s, h1, h3, h2, tb.2.2.1, tb.1, t, h4, h5, h6⟩
  obtain ⟨s, h1, h2, h3, hne, hj12, t, h4, h5, h6⟩ := key
  obtain ⟨u, hu⟩ := corner_some h hP h1 h3
  refine ⟨_, mem_cellTriangles.2 ⟨s, h1, rfl⟩, _, mem_cellTriangles.2 ⟨t, h4, rfl⟩, vid_corner h2 vi,
    vid_corner h5 (by rw [vid_across hf hi hif]; exact vi), u, ?_, vid_corner h3 hu,
    vid_corner h6 (by rw [vid_across hf hj12 hj]; exact hu)⟩
  rintro rfl
  exact hne (vid_inj h hj12 hi hu vi)

theorem slotEdge_cell_inj {P Q : IVec3} {i : Nat} (h : slotEdge P i = slotEdge Q i) : P = Q := by
  obtain ⟨x, y, z⟩ := P
  obtain ⟨x', y', z'⟩ := Q
  have := congrArg LEdge.at_ h
  simp only [slotEdge, shift, IVec3.mk.injEq] at this ⊢
  omega

/-- The cell between two diagonal cells of the grid is in the grid. -/
theorem between_in {h : Int} {P : IVec3} {f f' : Nat} (hP : CellIn h P)
    (hQ : CellIn h (acrossFace (acrossFace P f) f')) (hne : faceAxis f ≠ faceAxis f') :
    CellIn h (acrossFace P f) := by
  rw [cellIn_iff] at *
  obtain ⟨x, y, z⟩ := P
  unfold acrossFace faceDir shift at *
  cases ha : faceAxis f <;> cases hb : faceAxis f' <;> rw [ha, hb] at hne <;>
    first | exact absurd rfl hne | (simp only [ha, hb] at *; omega)

/-- C72.  Marching cubes meshes have no pinched vertices: on every consistent grid the triangles around each mesh vertex
form one fan (with `C16_closed`: each side belongs to at most two triangles, with opposite directions). -/
theorem C72_marching_cubes {g : Grid K} (h : Filled g) (nrm : Vec3 K → Vec3 K) {r : PlacedMesh K}
    (hr : marchingCubes nrm g = some r) : OneFan (triangles r.mesh.indices) := by
  rw [mc_result h] at hr
  cases hr
  dsimp only
  rw [triangles_flatTri]
  intro v s hs t ht cs ct
  obtain ⟨P, hP, hs⟩ := List.mem_flatMap.1 hs
  obtain ⟨Q, hQ, ht⟩ := List.mem_flatMap.1 ht
  have hPc := ((mem_mcCells h).1 hP).1
  have hQc := ((mem_mcCells h).1 hQ).1
  have place : ∀ {R u}, R ∈ mcCells g → u ∈ cellTriangles g R → HasCorner u v → ∃ i < 12, vid g R i = some v := by
    intro R u hR hu cu
    obtain ⟨u, hu', rfl⟩ := mem_cellTriangles.1 hu
    obtain ⟨i, hi, -, vi⟩ := corner_vid h ((mem_mcCells h).1 hR).1 hu' cu
    exact ⟨i, hi, vi⟩
  obtain ⟨i, hi, vi⟩ := place hP hs cs
  obtain ⟨i', hi', vi'⟩ := place hQ ht ct
  have hcells : ∀ {R k}, CellIn g.maxCoord R → k < 12 → vid g R k = some v → R ∈ mcCells g :=
    fun hR hk hv => (mem_mcCells h).2 ⟨hR, _, hk, by rw [hv]; rfl⟩
  -- one step
  have step : ∀ {R : IVec3} {f k : Nat} {a : Nat × Nat × Nat}, CellIn g.maxCoord R → f < 6 → k < 12 → inFace f k = true →
      CellIn g.maxCoord (acrossFace R f) → vid g R k = some v → a ∈ cellTriangles g R → HasCorner a v →
      ∃ b ∈ cellTriangles g (acrossFace R f), HasCorner b v ∧
        Relation.ReflTransGen (fun a b => a ∈ (mcCells g).flatMap (cellTriangles g) ∧
          b ∈ (mcCells g).flatMap (cellTriangles g) ∧ ShareSideAt v a b) a b := by
    intro R f k a hR hf hk hfk hR' hv ha ca
    obtain ⟨x, hx, y, hy, hxy⟩ := face_link h hR hf hk hfk hv
    have m1 := hcells hR hk hv
    have m2 : acrossFace R f ∈ mcCells g :=
      hcells hR' (opp_table f hf k hk hfk).1 (by rw [vid_across hf hk hfk]; exact hv)
    exact ⟨y, hy, hxy.2.1, (cell_link h m1 ha hx ca hxy.1).tail
      ⟨List.mem_flatMap.2 ⟨_, m1, hx⟩, List.mem_flatMap.2 ⟨_, m2, hy⟩, hxy⟩⟩
  have he : slotEdge P i = slotEdge Q i' := edgeIdx_inj h vi vi'
  rcases places_table i hi i' hi' (congrArg LEdge.axis he) with rfl | ⟨f, hf, fi, rfl⟩ | ⟨f, hf, f', hf', fi, fi', hne, rfl⟩
  · obtain rfl := slotEdge_cell_inj he
    exact cell_link h hP hs ht cs ct
  · rw [← slotEdge_across hf hi fi] at he
    obtain rfl := slotEdge_cell_inj he
    obtain ⟨b, hb, cb, hab⟩ := step hPc hf hi fi hQc vi hs cs
    exact hab.trans (cell_link h hQ hb ht cb ct)
  · have ho := (opp_table f hf i hi fi).1
    rw [← slotEdge_across hf hi fi, ← slotEdge_across hf' ho fi'] at he
    obtain rfl := slotEdge_cell_inj he
    have hB := between_in hPc hQc hne
    obtain ⟨b, hb, cb, hab⟩ := step hPc hf hi fi hB vi hs cs
    obtain ⟨c, hc, cc, hbc⟩ := step hB hf' ho fi' hQc (by rw [vid_across hf hi fi]; exact vi) hb cb
    exact (hab.trans hbc).trans (cell_link h hQ hc ht cc ct)

/-- Non-vacuity for C72: the demo grid gives a mesh with vertices, all used by triangles. -/
example : ∃ g : Grid ℚ, Filled g ∧ ∃ r, marchingCubes id g = some r ∧ OneFan (triangles r.mesh.indices) ∧
    ∃ t ∈ triangles r.mesh.indices, HasCorner t 0 := by
  obtain ⟨g', e, hf⟩ := demo_filled
  obtain ⟨r, hr, -, -, -, h5, -, -, h8⟩ := C15_valid hf id
  refine ⟨g', hf, r, hr, C72_marching_cubes hf id hr, ?_⟩
  have hmem := ((C07_fill_edges demoGrid_reachable e .X).1 _).2 ⟨⟨0, 1, 0⟩, by decide,
    by norm_num [Crosses, demoField, worldPos, demoGrid, edgeEnd, shift], rfl⟩
  obtain ⟨v, hv⟩ := List.mem_iff_getElem?.1 ((mem_edgeList hf).2 hmem)
  have := h5 v _ hv
  exact h8 0 (Nat.lt_of_le_of_lt (Nat.zero_le _) (List.getElem?_eq_some_iff.1 this).1)

end Isomesh
