import Verif.Proofs.Volume
import Verif.Props.McOrient
import Verif.Props.AccuracyOct

/-! C81: the volume enclosed by a marching cubes mesh. -/

namespace Isomesh
open Spec

section
variable {K : Type} [Field K] [LinearOrder K] [IsStrictOrderedRing K]

/-- The cells of a cube of cells. -/
def boxCells (n : Nat) (B : IVec3) : Finset IVec3 :=
  (Finset.range n ×ˢ Finset.range n ×ˢ Finset.range n).image fun q => ⟨B.x + q.1, B.y + q.2.1, B.z + q.2.2⟩

theorem boxSum_eq (n : Nat) (B : IVec3) (F : IVec3 → K) : boxSum n B F = ∑ P ∈ boxCells n B, F P := by
  unfold boxSum boxCells
  rw [Finset.sum_image]
  · rw [Finset.sum_product]
    refine Finset.sum_congr rfl fun i _ => ?_
    rw [Finset.sum_product]
  · rintro ⟨a, b, c⟩ - ⟨a', b', c'⟩ - e
    simp only [IVec3.mk.injEq] at e
    simp only [Prod.mk.injEq]
    omega

theorem mem_boxCells {n : Nat} {h : Int} (hn : (n : Int) = 2 * h) {P : IVec3} : P ∈ boxCells n ⟨-h, -h, -h⟩ ↔ CellIn h P := by
  rw [cellIn_iff]
  unfold boxCells
  simp only [Finset.mem_image, Finset.mem_product, Finset.mem_range, Prod.exists]
  obtain ⟨x, y, z⟩ := P
  constructor
  · rintro ⟨a, b, c, hl, e⟩
    simp only [IVec3.mk.injEq] at e
    dsimp only
    omega
  · intro hl
    dsimp only at hl
    exact ⟨(x + h).toNat, (y + h).toNat, (z + h).toNat, by omega, by simp only [IVec3.mk.injEq]; omega⟩

/-- Offset of the surface on a lattice edge. -/
def edgeTau (g : Grid K) (le : LEdge) : K :=
  match (edgeIdx g le).bind fun v => (edgeList g)[v]? with
  | some e => e.offset
  | none => 0

theorem edgeTau_vid {g : Grid K} (h : Filled g) {P : IVec3} {i : Nat} (hi : i < 12) {v : Nat} (hv : vid g P i = some v)
    (nrm : Vec3 K → Vec3 K) :
    ∃ a : MeshVertex K, ((edgeList g).map (mcVertex nrm))[v]? = some a ∧
      toWorld ⟨⟨[], []⟩, g.globalPos, g.step⟩ a.position = latPoint (edgeTau g) g.step g.globalPos P i := by
  obtain ⟨e, he, hl⟩ := (edgeIdx_eq_some h).1 hv
  refine ⟨mcVertex nrm e, by rw [List.getElem?_map, he]; rfl, ?_⟩
  have ht : volT (edgeTau g) P i = e.offset := by
    unfold volT edgeTau
    have hv' : edgeIdx g (slotEdge P i) = some v := hv
    rw [hv', Option.bind_some, he]
  unfold mcVertex latPoint toWorld
  rw [ht]
  dsimp only
  rw [surfacePoint_rel hi hl]
  simp only [Vec3.add, toVec]

/-- Six times the volume of one triangle of a mesh. -/
def triSix (V : List (MeshVertex K)) (gp : Vec3 K) (sc : K) (t : Nat × Nat × Nat) : K :=
  match V[t.1]?, V[t.2.1]?, V[t.2.2]? with
  | some a, some b, some c => tripleProduct (toWorld ⟨⟨[], []⟩, gp, sc⟩ a.position) (toWorld ⟨⟨[], []⟩, gp, sc⟩ b.position)
      (toWorld ⟨⟨[], []⟩, gp, sc⟩ c.position)
  | _, _, _ => 0

theorem enclosed_six (V : List (MeshVertex K)) (idx : List Nat) (gp : Vec3 K) (sc : K) :
    6 * enclosedVolume ⟨⟨V, idx⟩, gp, sc⟩ = ((triangles idx).map (triSix V gp sc)).sum := by
  unfold enclosedVolume
  dsimp only
  rw [← List.sum_map_mul_left]
  refine congrArg List.sum (List.map_congr_left fun t _ => ?_)
  unfold triSix
  rcases V[t.1]? with _ | a <;> rcases V[t.2.1]? with _ | b <;> rcases V[t.2.2]? with _ | c <;> simp only [mul_zero]
  unfold toWorld
  dsimp only
  ring

/-- The sum of the mesh as a sum over cells. -/
theorem mesh_volume {g : Grid K} (h : Filled g) (nrm : Vec3 K → Vec3 K) {r : PlacedMesh K} (hr : marchingCubes nrm g = some r)
    {n : Nat} (hn : (n : Int) = 2 * g.half) :
    6 * enclosedVolume r = boxSum n ⟨-g.half, -g.half, -g.half⟩ (latSum (solidAt g) (edgeTau g) g.step g.globalPos) := by
  rw [mc_result h, Option.some.injEq] at hr
  subst hr
  rw [enclosed_six, triangles_flatTri, List.map_flatMap]
  have hcell : ∀ P ∈ mcCells g, ((cellTriangles g P).map (triSix ((edgeList g).map (mcVertex nrm)) g.globalPos g.step)).sum =
      latSum (solidAt g) (edgeTau g) g.step g.globalPos P := by
    intro P hP
    obtain ⟨hc, -⟩ := (mem_mcCells h).1 hP
    unfold cellTriangles latSum
    rw [List.map_map]
    refine congrArg List.sum (List.map_congr_left fun t ht => ?_)
    obtain ⟨l1, l2, l3⟩ := tri_lt (cellMask_lt g P) ht
    obtain ⟨x, y, z, hx, hy, hz, -⟩ := cellTriangles_ok h hc ht
    obtain ⟨a, ha, ha'⟩ := edgeTau_vid h l1 hx nrm
    obtain ⟨b, hb, hb'⟩ := edgeTau_vid h l2 hy nrm
    obtain ⟨c, hcc, hc'⟩ := edgeTau_vid h l3 hz nrm
    simp only [Function.comp, triSix, hx, hy, hz, Option.getD_some, ha, hb, hcc]
    rw [← ha', ← hb', ← hc']
  have hsum : ∀ (L : List IVec3) (F : Nat × Nat × Nat → K) (G : IVec3 → K), (∀ P ∈ L, ((cellTriangles g P).map F).sum = G P) →
      (L.flatMap fun P => (cellTriangles g P).map F).sum = (L.map G).sum := by
    intro L F G hL
    induction L with
    | nil => rfl
    | cons P L ih =>
      rw [List.flatMap_cons, List.sum_append, List.map_cons, List.sum_cons, hL P List.mem_cons_self,
        ih fun Q hQ => hL Q (List.mem_cons_of_mem _ hQ)]
  rw [hsum _ _ _ hcell]
  have hnd : (mcCells g).Nodup := (mcCells_sorted h).imp (fun hlt he => by subst he; omega)
  rw [boxSum_eq, ← List.sum_toFinset _ hnd]
  refine Finset.sum_subset (fun P hP => ?_) (fun P hP hn' => ?_)
  · rw [List.mem_toFinset] at hP
    exact (mem_boxCells hn).2 ((mem_mcCells h).1 hP).1
  · rw [List.mem_toFinset] at hn'
    have hc : CellIn g.maxCoord P := (mem_boxCells hn).1 hP
    unfold latSum
    have : mcTriangles (volMask (solidAt g) P) = [] := by
      rw [List.eq_nil_iff_forall_not_mem]
      intro t ht
      obtain ⟨x, y, z, hx, -⟩ := cellTriangles_ok h hc ht
      exact hn' ((mem_mcCells h).2 ⟨hc, t.1, (tri_lt (cellMask_lt g P) ht).1, by rw [hx]; rfl⟩)
    rw [this]
    rfl

omit [LinearOrder K] [IsStrictOrderedRing K] in
theorem count_sum (S : Finset IVec3) (p : IVec3 → Prop) [DecidablePred p] {T : Set IVec3} (hT : ∀ P, P ∈ T ↔ P ∈ S ∧ p P) :
    ∑ P ∈ S, (if p P then (6 : K) else 0) = 6 * (T.ncard : K) := by
  rw [← Finset.sum_filter, Finset.sum_const, nsmul_eq_mul, mul_comm]
  congr 2
  rw [← Set.ncard_coe_finset]
  congr 1
  ext P
  rw [hT]
  simp

/-- C81: let a grid be consistent, with surface positions on the edges, no solid vertex on its border, and positive cell size.  The volume
enclosed by its marching cubes mesh is at least that of the cells all of whose corners are solid and at most that of the cells with some solid
corner. -/
theorem C81_volume {g : Grid K} (h : Filled g) (hstep : 0 < g.step) (hoff : ∀ D, ∀ e ∈ g.edges D, 0 ≤ e.offset ∧ e.offset ≤ 1)
    (hborder : ∀ p, InCube g.maxCoord p → (∃ a, p.get a = -g.maxCoord ∨ p.get a = g.maxCoord) → solidAt g p = false)
    (nrm : Vec3 K → Vec3 K) {r : PlacedMesh K} (hr : marchingCubes nrm g = some r) :
    (solidCells g.maxCoord (fun p => solidAt g p = true)).ncard * g.step ^ 3 ≤ enclosedVolume r ∧
    enclosedVolume r ≤ (touchedCells g.maxCoord (fun p => solidAt g p = true)).ncard * g.step ^ 3 := by
  have hτ : ∀ e, 0 ≤ edgeTau g e ∧ edgeTau g e ≤ 1 := by
    intro le
    unfold edgeTau
    split
    · rename_i e he
      obtain ⟨v, -, hv⟩ := Option.bind_eq_some_iff.1 he
      exact hoff _ e ((mem_edgeList h).1 (List.mem_of_getElem? hv))
    · exact ⟨le_rfl, zero_le_one⟩
  obtain ⟨n, hn⟩ : ∃ n : Nat, (n : Int) = 2 * g.half := ⟨g.size, h.wf.half_eq⟩
  have hs : ∀ p : IVec3, (∃ a, p.get a = (⟨-g.half, -g.half, -g.half⟩ : IVec3).get a ∨
      p.get a = (⟨-g.half, -g.half, -g.half⟩ : IVec3).get a + n) → solidAt g p = false := by
    rintro p ⟨a, ha⟩
    by_cases hin : InCube g.maxCoord p
    · refine hborder p hin ⟨a, ?_⟩
      show p.get a = -(g.half : Int) ∨ p.get a = (g.half : Int)
      cases a <;> simp only [IVec3.get] at ha ⊢ <;> push_cast at ha <;> omega
    · have hv : ¬ g.isVertexInGrid p = true := by rw [Grid.isVertexInGrid_iff]; exact hin
      unfold solidAt Grid.at Grid.pointToIndex
      rw [if_neg hv]
  have key := mesh_volume h nrm hr hn
  rw [latSum_box _ _ _ _ _ _ hs] at key
  have h3 : 0 < g.step ^ 3 := by positivity
  have hb := fun P => latVol_bounds (solidAt g) (edgeTau g) hτ P
  rw [boxSum_eq] at key
  have hlo : 6 * ((solidCells g.maxCoord (fun p => solidAt g p = true)).ncard : K) ≤
      ∑ P ∈ boxCells n ⟨-g.half, -g.half, -g.half⟩, latVol (solidAt g) (edgeTau g) P := by
    refine le_trans (le_of_eq ?_) (Finset.sum_le_sum fun P _ => (hb P).1)
    refine (count_sum _ _ fun P => ?_).symm
    rw [mem_boxCells hn]
    rfl
  have hhi : ∑ P ∈ boxCells n ⟨-g.half, -g.half, -g.half⟩, latVol (solidAt g) (edgeTau g) P ≤
      6 * ((touchedCells g.maxCoord (fun p => solidAt g p = true)).ncard : K) := by
    refine le_trans (Finset.sum_le_sum fun P _ => (hb P).2) (le_of_eq ?_)
    refine count_sum _ _ fun P => ?_
    rw [mem_boxCells hn]
    rfl
  have e1 := mul_le_mul_of_nonneg_left hlo h3.le
  have e2 := mul_le_mul_of_nonneg_left hhi h3.le
  rw [← key] at e1 e2
  constructor <;> linarith

end

/-- C81 (filled grids): a grid of any history is filled with a field whose solid does not reach the border of the grid, with a zero finder
that stays on the edges (both of the library do, `C69_solvers`).  The volume that the marching cubes mesh encloses is between that of the cells
with all corners in the solid and that of the cells with some corner in the solid. -/
theorem C81_fill {g g' : Grid ℝ} (hg : g.Reachable) (hstep : 0 < g.step) {f : ScalarField ℝ} (hp : ProperField f) {sv : ZeroFinder ℝ}
    (hsv : StaysOnEdges f sv g.globalPos g.step) (hclear : ClearOfBox f (worldPos g.globalPos g.step) (-g.maxCoord) g.maxCoord)
    (h : g.fill f sv = some g') (nrm : Vec3 ℝ → Vec3 ℝ) {r : PlacedMesh ℝ} (hr : marchingCubes nrm g' = some r) :
    (solidCells g.maxCoord fun p => f.value (worldPos g.globalPos g.step p) ≤ 0).ncard * g.step ^ 3 ≤ enclosedVolume r ∧
    enclosedVolume r ≤ (touchedCells g.maxCoord fun p => f.value (worldPos g.globalPos g.step p) ≤ 0).ncard * g.step ^ 3 := by
  have hF := C07_filled hg hp h
  obtain ⟨g'', hfill, ⟨-, hh, hpos, hst⟩, -⟩ := C06_fill_materials hg f sv
  rw [h] at hfill; cases hfill
  have hmc : g'.maxCoord = g.maxCoord := hh
  have hoff : ∀ D, ∀ e ∈ g'.edges D, 0 ≤ e.offset ∧ e.offset ≤ 1 := by
    intro D e he
    obtain ⟨p, -, hc, rfl⟩ := ((C07_fill_edges hg h D).1 e).1 he
    exact C07_offset hstep (hsv D p hc)
  have hborder : ∀ p, InCube g'.maxCoord p → (∃ a, p.get a = -g'.maxCoord ∨ p.get a = g'.maxCoord) → solidAt g' p = false := by
    intro p hin hb
    rw [solidAt_fill hg hp h hin]
    rw [hmc] at hin hb
    have := hclear p (fun a => by cases a; exacts [hin.1, hin.2.1, hin.2.2]) hb
    simpa using this
  have key := C81_volume hF (by rw [hst]; exact hstep) hoff hborder nrm hr
  rw [hst, hmc] at key
  have e1 : solidCells g.maxCoord (fun p => solidAt g' p = true) = solidCells g.maxCoord fun p => f.value (worldPos g.globalPos g.step p) ≤ 0 := by
    ext P
    refine and_congr_right fun hP => forall₂_congr fun v hv => ?_
    beta_reduce
    rw [solidAt_fill hg hp h (by rw [hmc]; exact hP v hv)]
    simp
  have e2 : touchedCells g.maxCoord (fun p => solidAt g' p = true) = touchedCells g.maxCoord fun p => f.value (worldPos g.globalPos g.step p) ≤ 0 := by
    ext P
    refine and_congr_right fun hP => exists_congr fun v => and_congr_right fun hv => ?_
    beta_reduce
    rw [solidAt_fill hg hp h (by rw [hmc]; exact hP v hv)]
    simp
  rw [e1, e2] at key
  exact key

/-- C81 (error): the enclosed volume differs from the volume of the solid cells by at most the volume of the cells that the surface can cross. -/
theorem C81_error {g g' : Grid ℝ} (hg : g.Reachable) (hstep : 0 < g.step) {f : ScalarField ℝ} (hp : ProperField f) {sv : ZeroFinder ℝ}
    (hsv : StaysOnEdges f sv g.globalPos g.step) (hclear : ClearOfBox f (worldPos g.globalPos g.step) (-g.maxCoord) g.maxCoord)
    (h : g.fill f sv = some g') (nrm : Vec3 ℝ → Vec3 ℝ) {r : PlacedMesh ℝ} (hr : marchingCubes nrm g' = some r) :
    |enclosedVolume r - (solidCells g.maxCoord fun p => f.value (worldPos g.globalPos g.step p) ≤ 0).ncard * g.step ^ 3| ≤
      (touchedCells g.maxCoord (fun p => f.value (worldPos g.globalPos g.step p) ≤ 0) \
        solidCells g.maxCoord fun p => f.value (worldPos g.globalPos g.step p) ≤ 0).ncard * g.step ^ 3 := by
  obtain ⟨h1, h2⟩ := C81_fill hg hstep hp hsv hclear h nrm hr
  have hfin : (touchedCells g.maxCoord fun p => f.value (worldPos g.globalPos g.step p) ≤ 0).Finite := by
    obtain ⟨n, hn⟩ : ∃ n : Nat, (n : Int) = 2 * g.half := ⟨g.size, hg.wf.half_eq⟩
    exact (boxCells n ⟨-g.half, -g.half, -g.half⟩).finite_toSet.subset fun P hP => (mem_boxCells hn).2 hP.1
  have hsub : (solidCells g.maxCoord fun p => f.value (worldPos g.globalPos g.step p) ≤ 0) ⊆
      touchedCells g.maxCoord fun p => f.value (worldPos g.globalPos g.step p) ≤ 0 :=
    fun P hP => ⟨hP.1, P, by obtain ⟨x, y, z⟩ := P; simp [cellVertices, shift], hP.2 P (by obtain ⟨x, y, z⟩ := P; simp [cellVertices, shift])⟩
  have hd := Set.ncard_sdiff_add_ncard_of_subset hsub hfin
  have hd' := congrArg (Nat.cast (R := ℝ)) hd
  push_cast at hd'
  rw [← hd'] at h2
  rw [abs_of_nonneg (by linarith)]
  linarith

/-- A cube with side 3 in the middle. -/
noncomputable def boxField : ScalarField ℝ :=
  ⟨fun q => max (max |q.x| |q.y|) |q.z| - 3 / 2, fun _ => ⟨1, 0, 0⟩, fun _ _ => .Stone⟩

/-- Non-vacuity of C81: a cube of side 3 in a grid of `4^3` unit cells, where the enclosed volume is at least 8. -/
example : ∃ (g g' : Grid ℝ) (r : PlacedMesh ℝ), g.Reachable ∧ 0 < g.step ∧ ProperField boxField ∧
    StaysOnEdges boxField (bisectionFinder 4) g.globalPos g.step ∧ ClearOfBox boxField (worldPos g.globalPos g.step) (-g.maxCoord) g.maxCoord ∧
    g.fill boxField (bisectionFinder 4) = some g' ∧ marchingCubes id g' = some r ∧ 1 ≤ enclosedVolume r := by
  obtain ⟨g, e, hgp⟩ : ∃ g, Grid.mk' 4 (⟨0, 0, 0⟩ : Vec3 ℝ) 1 = .ok g ∧ g.globalPos = ⟨0, 0, 0⟩ ∧ g.step = 1 ∧ g.maxCoord = 2 := ⟨_, rfl, rfl, rfl, rfl⟩
  have hre : g.Reachable := .mk e
  have hprop : ProperField boxField := by intro q _; simp [boxField]
  obtain ⟨g', hfill, -⟩ := C06_fill_materials hre boxField (bisectionFinder 4)
  obtain ⟨r, hr, -⟩ := C15_valid (C07_filled hre hprop hfill) id
  have hstep : 0 < g.step := by rw [hgp.2.1]; norm_num
  have hsv := (C69_solvers boxField 0 4 g.globalPos hstep).1
  have hval : ∀ p : IVec3, boxField.value (worldPos ⟨0, 0, 0⟩ 1 p) = max (max |(p.x : ℝ)| |(p.y : ℝ)|) |(p.z : ℝ)| - 3 / 2 := by
    intro p
    simp [boxField, worldPos]
  have hclear : ClearOfBox boxField (worldPos g.globalPos g.step) (-g.maxCoord) g.maxCoord := by
    rintro p - ⟨a, ha⟩
    rw [hgp.1, hgp.2.1, hval]
    rw [hgp.2.2] at ha
    have : |((p.get a : Int) : ℝ)| = 2 := by rcases ha with h | h <;> rw [h] <;> norm_num
    have h2 : |((p.get a : Int) : ℝ)| ≤ max (max |(p.x : ℝ)| |(p.y : ℝ)|) |(p.z : ℝ)| := by
      cases a <;> simp [IVec3.get]
    linarith
  refine ⟨g, g', r, hre, hstep, hprop, hsv, hclear, hfill, hr, ?_⟩
  refine le_trans ?_ (C81_fill hre hstep hprop hsv hclear hfill id hr).1
  rw [hgp.1, hgp.2.1, hgp.2.2, one_pow, mul_one]
  have hfin : (solidCells 2 fun p => boxField.value (worldPos ⟨0, 0, 0⟩ 1 p) ≤ 0).Finite :=
    (boxCells 4 ⟨-2, -2, -2⟩).finite_toSet.subset fun P hP => (mem_boxCells (by norm_num)).2 hP.1
  have hmem : (⟨0, 0, 0⟩ : IVec3) ∈ solidCells 2 fun p => boxField.value (worldPos ⟨0, 0, 0⟩ 1 p) ≤ 0 := by
    refine ⟨cellIn_iff.2 (by decide), fun v hv => ?_⟩
    beta_reduce
    rw [hval]
    simp only [cellVertices, shift, List.mem_cons, List.not_mem_nil, or_false] at hv
    rcases hv with rfl | rfl | rfl | rfl | rfl | rfl | rfl | rfl <;> norm_num
  have := (Set.ncard_pos hfin).2 ⟨_, hmem⟩
  exact_mod_cast this

end Isomesh
