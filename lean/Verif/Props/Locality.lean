import Verif.Spec.Locality
import Verif.Props.Accuracy
import Verif.Props.AccuracyOct

/-! C83: an edit of the field changes the marching cubes mesh only in the cells the edit touches. -/

namespace Isomesh

open Spec Set

/-! ### Both zero finders are local -/

theorem bisectLoop_local {f f' : ScalarField ℝ} {C : Axis} (n : Nat) (p : Vec3 ℝ) (c0 c1 f0 f1 : ℝ)
    (h : ∀ c ∈ uIcc c0 c1, f'.value (p.set C c) = f.value (p.set C c)) :
    bisectLoop f' C p n c0 c1 f0 f1 = bisectLoop f C p n c0 c1 f0 f1 := by
  induction n generalizing p c0 c1 f0 f1 with
  | zero => rfl
  | succ n ih =>
    have hm : (c0 + c1) * (1 / 2) ∈ uIcc c0 c1 := by
      rw [mem_uIcc]; rcases le_total c0 c1 with h | h
      · left; constructor <;> linarith
      · right; constructor <;> linarith
    have hset : ∀ a b, (p.set C a).set C b = p.set C b := fun a b => by cases C <;> rfl
    simp only [bisectLoop]
    rw [h _ hm]
    rw [ih, ih]
    · intro c hc; rw [hset]; exact h c (uIcc_subset_uIcc left_mem_uIcc hm hc)
    · intro c hc; rw [hset]; exact h c (uIcc_subset_uIcc hm right_mem_uIcc hc)

theorem rfLoop_local {f f' : ScalarField ℝ} {C : Axis} (n : Nat) (p : Vec3 ℝ) (s : RFSide) (c0 c1 f0 f1 : ℝ) {l : List ℝ}
    (hl : rfLoop f C p n s c0 c1 f0 f1 = some l)
    (h : ∀ c ∈ l, f'.value (p.set C c) = f.value (p.set C c)) :
    rfLoop f' C p n s c0 c1 f0 f1 = some l := by
  induction n generalizing p s c0 c1 f0 f1 l with
  | zero => exact hl
  | succ n ih =>
    have hset : ∀ a b, (p.set C a).set C b = p.set C b := fun a b => by cases C <;> rfl
    simp only [rfLoop] at hl ⊢
    by_cases h0 : f1 - f0 = 0
    · simp [h0] at hl
    rw [if_neg h0] at hl ⊢
    generalize (c0 * f1 - c1 * f0) / (f1 - f0) = mid at hl ⊢
    have hmid : mid ∈ l := by
      revert hl; split_ifs <;> simp only [Option.map_eq_some_iff, Option.some.injEq] <;>
        first
        | (rintro ⟨k, -, rfl⟩; simp)
        | (rintro rfl; simp)
    rw [h mid hmid]
    by_cases h1 : f.value (p.set C mid) * f0 > 0
    · rw [if_pos h1] at hl ⊢
      obtain ⟨k, hk, rfl⟩ := Option.map_eq_some_iff.1 hl
      rw [ih _ _ _ _ _ _ hk (fun c hc => by rw [hset]; exact h c (List.mem_cons_of_mem _ hc))]
      rfl
    rw [if_neg h1] at hl ⊢
    by_cases h2 : f.value (p.set C mid) * f1 > 0
    · rw [if_pos h2] at hl ⊢
      obtain ⟨k, hk, rfl⟩ := Option.map_eq_some_iff.1 hl
      rw [ih _ _ _ _ _ _ hk (fun c hc => by rw [hset]; exact h c (List.mem_cons_of_mem _ hc))]
      rfl
    · rw [if_neg h2] at hl ⊢
      exact hl

theorem onEdge_iff {origin : Vec3 ℝ} {step : ℝ} (hstep : 0 < step) {D : Axis} {p : IVec3} {c : ℝ}
    (h1 : (worldPos origin step p).get D ≤ c) (h2 : c ≤ (worldPos origin step p).get D + step) :
    OnGridEdge origin step D p ((worldPos origin step p).set D c) := by
  refine ⟨(c - (worldPos origin step p).get D) / step, div_nonneg (by linarith) hstep.le, (div_le_one hstep).2 (by linarith), ?_⟩
  rw [div_mul_cancel₀ _ hstep.ne']
  congr 1; ring

/-- C83 (finders): the answers of both zero finders of the library depend only on the values of the field on the edge. -/
theorem C83_finders (nan : ℝ) (steps : Int) (origin : Vec3 ℝ) {step : ℝ} (hstep : 0 < step) :
    LocalFinder (bisectionFinder steps) origin step ∧ LocalFinder (regulaFalsiFinder nan steps) origin step := by
  constructor
  · intro f f' D p hc hagree
    have hend := edgeEnd_world origin step D p
    generalize hP : worldPos origin step p = P at *
    have hon : ∀ c ∈ uIcc (P.get D) (P.get D + step), f'.value (P.set D c) = f.value (P.set D c) := by
      intro c hc
      rw [uIcc_of_le (by linarith), mem_Icc] at hc
      apply hagree
      subst hP
      exact onEdge_iff hstep hc.1 hc.2
    have h0 : f'.value P = f.value P := by
      have := hon _ left_mem_uIcc
      have e : P.set D (P.get D) = P := by cases D <;> rfl
      rwa [e] at this
    have h1 := hon _ right_mem_uIcc
    have hco : ∀ f : ScalarField ℝ, crossingCoord f (bisectionFinder steps) (worldPos origin step) D p =
        bisectLoop f D P (stepCount steps) (P.get D) (P.get D + step) (f.value P) (f.value (P.set D (P.get D + step))) := by
      intro f
      unfold crossingCoord
      rw [hend, hP]
      cases D <;> rfl
    rw [hco, hco, h0, h1]
    exact bisectLoop_local _ _ _ _ _ _ hon
  · intro f f' D p hc hagree
    have hend := edgeEnd_world origin step D p
    obtain ⟨h1, h2⟩ := C07_solver_precondition hc
    rw [hend] at h1 h2
    generalize hP : worldPos origin step p = P at *
    have hon : ∀ c ∈ uIcc (P.get D) (P.get D + step), f'.value (P.set D c) = f.value (P.set D c) := by
      intro c hc
      rw [uIcc_of_le (by linarith), mem_Icc] at hc
      apply hagree
      subst hP
      exact onEdge_iff hstep hc.1 hc.2
    have e0 : f'.value P = f.value P := by
      have := hon _ left_mem_uIcc
      have e : P.set D (P.get D) = P := by cases D <;> rfl
      rwa [e] at this
    have e1 := hon _ right_mem_uIcc
    have hco : ∀ f : ScalarField ℝ, crossingCoord f (regulaFalsiFinder nan steps) (worldPos origin step) D p =
        (rfFind steps D P.x P.y P.z (P.get D + step) (f.value P) (f.value (P.set D (P.get D + step))) f).getD nan := by
      intro f
      unfold crossingCoord
      rw [hend, hP]
      cases D <;> rfl
    rw [hco, hco, e0, e1]
    by_cases a0 : f.value P = 0
    · have b0 : f.value (P.set D (P.get D + step)) ≠ 0 := by
        intro b0; rw [a0, b0] at h2; simp at h2
      rw [(C12_zero_endpoint steps D P.x P.y P.z (P.get D + step) f (f.value P) _ rfl rfl).1 a0 b0,
        (C12_zero_endpoint steps D P.x P.y P.z (P.get D + step) f' (f.value P) _ e0.symm e1.symm).1 a0 b0]
    · by_cases b0 : f.value (P.set D (P.get D + step)) = 0
      · rw [(C12_zero_endpoint steps D P.x P.y P.z (P.get D + step) f (f.value P) _ rfl rfl).2 b0 a0,
          (C12_zero_endpoint steps D P.x P.y P.z (P.get D + step) f' (f.value P) _ e0.symm e1.symm).2 b0 a0]
      · obtain ⟨l, r, hs, hr, -, -, -, -, hb, -⟩ := C12_regula_falsi steps D P.x P.y P.z (P.get D + step) (f.value P)
          (f.value (P.set D (P.get D + step))) f (by show P.get D ≠ _; linarith)
          (lt_of_le_of_ne h1 (mul_ne_zero a0 b0))
        have hs' : rfSamples steps D P.x P.y P.z (P.get D + step) (f.value P) (f.value (P.set D (P.get D + step))) f' = some l := by
          unfold rfSamples at hs ⊢
          refine rfLoop_local _ _ _ _ _ _ _ hs fun c hc => hon c ?_
          have := hb c hc
          have e1 : (⟨P.x, P.y, P.z⟩ : Vec3 ℝ).get D = P.get D := rfl
          rw [e1, min_eq_left (by linarith), max_eq_right (by linarith)] at this
          rw [uIcc_of_le (by linarith)]
          exact ⟨this.1.le, this.2.le⟩
        unfold rfFind
        rw [hs, hs']

/-! ### Cells -/

/-- The vertex of the mesh for the `i`-th edge of the cell `P`. -/
def slotVertex (nrm : Vec3 ℝ → Vec3 ℝ) (g : Grid ℝ) (P : IVec3) (i : Nat) : Option (MeshVertex ℝ) :=
  ((vid g P i).bind fun v => (edgeList g)[v]?).map (mcVertex nrm)

/-- The triangles of a cell, given by their vertices. -/
def cellShown (nrm : Vec3 ℝ → Vec3 ℝ) (g : Grid ℝ) (P : IVec3) :
    List (Option (MeshVertex ℝ) × Option (MeshVertex ℝ) × Option (MeshVertex ℝ)) :=
  (mcTriangles (cellMask g P)).map fun t => (slotVertex nrm g P t.1, slotVertex nrm g P t.2.1, slotVertex nrm g P t.2.2)

theorem shown_cells {nrm : Vec3 ℝ → Vec3 ℝ} {g : Grid ℝ} (h : Filled g) {r : PlacedMesh ℝ} (hr : marchingCubes nrm g = some r) :
    shownTriangles r = (mcCells g).flatMap (cellShown nrm g) := by
  rw [mc_result h, Option.some.injEq] at hr
  subst hr
  unfold shownTriangles
  dsimp only
  rw [triangles_flatTri, List.map_flatMap]
  apply flatMap_agree
  intro P hP
  unfold cellTriangles cellShown
  rw [List.map_map]
  apply List.map_congr_left
  intro t ht
  obtain ⟨a, b, c, ha, hb, hc, -⟩ := cellTriangles_ok h ((mem_mcCells h).1 hP).1 ht
  simp [slotVertex, ha, hb, hc]

variable {g gf gf' : Grid ℝ} {f f' : ScalarField ℝ} {sv : ZeroFinder ℝ}

theorem slot_record (hg : g.Reachable) (hf : ProperField f) (h : g.fill f sv = some gf) {P : IVec3} {i : Nat} {v : Nat} {e : GridEdge ℝ}
    (hv : vid gf P i = some v) (he : (edgeList gf)[v]? = some e) :
    Crosses f (worldPos g.globalPos g.step) (slotEdge P i).axis (slotEdge P i).at_ ∧
      e = edgeRecord f sv (worldPos g.globalPos g.step) g.step (slotEdge P i).axis (slotEdge P i).at_ := by
  have hF := C07_filled hg hf h
  obtain ⟨e', he', hle⟩ := (edgeIdx_eq_some hF).1 hv
  obtain rfl : e = e' := by rw [he] at he'; injection he'
  have hm := (mem_edgeList hF).1 (List.mem_of_getElem? he)
  obtain ⟨p, -, hc, hrec⟩ := ((C07_fill_edges hg h e.axis).1 e).1 hm
  have h1 : e.axis = (slotEdge P i).axis := congrArg LEdge.axis hle
  have h2 : e.lesser = (slotEdge P i).at_ := congrArg LEdge.at_ hle
  have h3 : p = e.lesser := by rw [hrec]; rfl
  rw [← h1, ← h2, ← h3]
  exact ⟨hc, hrec⟩

theorem slotVertex_in (hg : g.Reachable) (hstep : 0 < g.step) (hf : ProperField f) (hsv : StaysOnEdges f sv g.globalPos g.step)
    (h : g.fill f sv = some gf) (nrm : Vec3 ℝ → Vec3 ℝ) {r : PlacedMesh ℝ} (hr : marchingCubes nrm gf = some r) {P : IVec3} {i : Nat}
    (hi : i < 12) {v : MeshVertex ℝ} (hv : slotVertex nrm gf P i = some v) :
    InWorldCell r.globalPos r.globalScale P (meshToWorld r v.position) := by
  unfold slotVertex at hv
  obtain ⟨e, hb, rfl⟩ := Option.map_eq_some_iff.1 hv
  obtain ⟨k, hk, he⟩ := Option.bind_eq_some_iff.1 hb
  have hF := C07_filled hg hf h
  obtain ⟨g'', hfill, ⟨-, -, hpos, hst⟩, -⟩ := C06_fill_materials hg f sv
  rw [h] at hfill; cases hfill
  rw [mc_result hF, Option.some.injEq] at hr
  subst hr
  obtain ⟨hc, hrec⟩ := slot_record hg hf h hk he
  have hoff := C07_offset hstep (hsv _ _ hc)
  rw [← hrec] at hoff
  have hpt := C15_point_on_edge e hoff.1 hoff.2
  have hax : e.axis = (slotEdge P i).axis := by rw [hrec]; rfl
  have hle : e.lesser = (slotEdge P i).at_ := by rw [hrec]; rfl
  have hq : EdgeOfCell P e.axis e.lesser := by rw [hax, hle]; exact slotEdge_in_cell hi
  intro A
  have hc1 := cellVertices_get (hq e.lesser (by cases e.axis <;> simp [edgeVertices])) A
  have hc2 := cellVertices_get (hq (edgeEnd e.axis e.lesser) (by cases e.axis <;> simp [edgeVertices, edgeEnd])) A
  rw [edgeEnd_get] at hc2
  have k1 : (P.get A : ℝ) ≤ e.lesser.get A := by exact_mod_cast hc1.1
  have k2 : (e.lesser.get A : ℝ) ≤ P.get A + 1 := by exact_mod_cast hc1.2
  have k3 : (e.lesser.get A : ℝ) + (if A = e.axis then 1 else 0) ≤ P.get A + 1 := by exact_mod_cast hc2.2
  rw [worldPos_get, meshToWorld_get]
  dsimp only
  rw [hst]
  have hpos' : (P.get A : ℝ) ≤ (mcVertex nrm e).position.get A ∧ (mcVertex nrm e).position.get A ≤ P.get A + 1 := by
    show (P.get A : ℝ) ≤ e.surfacePoint.get A ∧ e.surfacePoint.get A ≤ P.get A + 1
    by_cases hA : A = e.axis
    · subst hA
      rw [if_pos rfl] at k3
      have := hpt.2.1
      rw [edgeEnd_get, if_pos rfl] at this
      push_cast at this
      exact ⟨by linarith [hpt.1], by linarith⟩
    · rw [hpt.2.2 A hA]
      exact ⟨k1, k2⟩
  constructor
  · nlinarith [hpos'.1]
  · nlinarith [hpos'.2]

theorem onEdge_inCell {origin : Vec3 ℝ} {step : ℝ} (hstep : 0 < step) {P : IVec3} {D : Axis} {p : IVec3} {q : Vec3 ℝ}
    (he : EdgeOfCell P D p) (hq : OnGridEdge origin step D p q) : InWorldCell origin step P q := by
  obtain ⟨s, s0, s1, hz⟩ := onGridEdge_get hq
  intro A
  have hc1 := cellVertices_get (he p (by cases D <;> simp [edgeVertices])) A
  have hc2 := cellVertices_get (he (edgeEnd D p) (by cases D <;> simp [edgeVertices, edgeEnd])) A
  rw [edgeEnd_get] at hc2
  have k1 : (P.get A : ℝ) ≤ p.get A := by exact_mod_cast hc1.1
  have k2 : (p.get A : ℝ) ≤ P.get A + 1 := by exact_mod_cast hc1.2
  have k3 : (p.get A : ℝ) + (if A = D then 1 else 0) ≤ P.get A + 1 := by exact_mod_cast hc2.2
  have key : (P.get A : ℝ) ≤ p.get A + (if A = D then s else 0) ∧ (p.get A + if A = D then s else 0) ≤ (P.get A : ℝ) + 1 := by
    split_ifs at * <;> constructor <;> linarith
  rw [hz, worldPos_get]
  generalize (p.get A + if A = D then s else 0) = w at key
  constructor
  · nlinarith [key.1]
  · nlinarith [key.2]

theorem corner_inCell (origin : Vec3 ℝ) {step : ℝ} (hstep : 0 < step) {P v : IVec3} (hv : v ∈ cellVertices P) :
    InWorldCell origin step P (worldPos origin step v) := by
  intro A
  have hc := cellVertices_get hv A
  have k1 : (P.get A : ℝ) ≤ v.get A := by exact_mod_cast hc.1
  have k2 : (v.get A : ℝ) ≤ P.get A + 1 := by exact_mod_cast hc.2
  rw [worldPos_get, worldPos_get]
  constructor <;> nlinarith

/-- No point of the cell is affected by the edit. -/
def CleanCell (f f' : ScalarField ℝ) (origin : Vec3 ℝ) (step : ℝ) (P : IVec3) : Prop :=
  ∀ q, InWorldCell origin step P q → AgreeAt f f' q

theorem corner_mem (P : IVec3) {i : Nat} (hi : i < 8) :
    shift P (cornerPos i).x (cornerPos i).y (cornerPos i).z ∈ cellVertices P := by
  obtain ⟨x, y, z⟩ := P
  interval_cases i <;> simp [cornerPos, shift, cellVertices]

section
variable (hg : g.Reachable) (hstep : 0 < g.step) (hf : ProperField f) (hf' : ProperField f') (hloc : LocalFinder sv g.globalPos g.step)
  (hsv : StaysOnEdges f sv g.globalPos g.step) (h : g.fill f sv = some gf) (h' : g.fill f' sv = some gf')
include hg hf hf' h h'

theorem clean_max : gf.maxCoord = g.maxCoord ∧ gf'.maxCoord = g.maxCoord ∧ gf.globalPos = g.globalPos ∧ gf'.globalPos = g.globalPos ∧
    gf.step = g.step ∧ gf'.step = g.step ∧ gf.size = gf'.size ∧ gf.half = gf'.half := by
  obtain ⟨g1, e1, ⟨a1, b1, c1, d1⟩, -⟩ := C06_fill_materials hg f sv
  obtain ⟨g2, e2, ⟨a2, b2, c2, d2⟩, -⟩ := C06_fill_materials hg f' sv
  rw [h] at e1; cases e1
  rw [h'] at e2; cases e2
  exact ⟨b1, b2, c1, c2, d1, d2, a1.trans a2.symm, b1.trans b2.symm⟩

include hstep

theorem clean_mask {P : IVec3} (hP : CellIn g.maxCoord P) (hc : CleanCell f f' g.globalPos g.step P) :
    cellMask gf' P = cellMask gf P := by
  obtain ⟨m1, m2, -⟩ := clean_max hg hf hf' h h'
  unfold cellMask
  have key : ∀ i < 8, solidAt gf' (shift P (cornerPos i).x (cornerPos i).y (cornerPos i).z) =
      solidAt gf (shift P (cornerPos i).x (cornerPos i).y (cornerPos i).z) := by
    intro i hi
    have hin := hP _ (corner_mem P hi)
    rw [solidAt_fill hg hf h (by rw [m1]; exact hin), solidAt_fill hg hf' h' (by rw [m2]; exact hin)]
    rw [(hc _ (corner_inCell g.globalPos hstep (corner_mem P hi))).1]
  apply Nat.eq_of_testBit_eq
  intro i
  rw [testBit_maskOf, testBit_maskOf]
  by_cases hi : i < 8
  · simp [hi, key i hi]
  · simp [hi]

include hloc hsv

theorem clean_vertex (nrm : Vec3 ℝ → Vec3 ℝ) {P : IVec3} (hP : CellIn g.maxCoord P) (hc : CleanCell f f' g.globalPos g.step P)
    {i : Nat} (hi : i < 12) : slotVertex nrm gf' P i = slotVertex nrm gf P i := by
  obtain ⟨m1, m2, -⟩ := clean_max hg hf hf' h h'
  have hF := C07_filled hg hf h
  have hF' := C07_filled hg hf' h'
  have hs : (vid gf' P i).isSome = (vid gf P i).isSome := by
    rw [vid_isSome hF (by rw [m1]; exact hP) hi, vid_isSome hF' (by rw [m2]; exact hP) hi, clean_mask hg hstep hf hf' h h' hP hc]
  unfold slotVertex
  cases hv : vid gf P i with
  | none =>
    rw [hv] at hs
    cases hv' : vid gf' P i with
    | none => rfl
    | some b => rw [hv'] at hs; simp at hs
  | some a =>
    rw [hv] at hs
    obtain ⟨b, hv'⟩ := Option.isSome_iff_exists.1 hs
    obtain ⟨e, he, -⟩ := (edgeIdx_eq_some hF).1 hv
    obtain ⟨e', he', -⟩ := (edgeIdx_eq_some hF').1 hv'
    rw [hv']
    simp only [Option.bind_some, he, he', Option.map_some]
    obtain ⟨hcr, r1⟩ := slot_record hg hf h hv he
    obtain ⟨hcr', r2⟩ := slot_record hg hf' h' hv' he'
    have heq : e' = e := by
      rw [r1, r2]
      have hedge : EdgeOfCell P (slotEdge P i).axis (slotEdge P i).at_ := slotEdge_in_cell hi
      generalize (slotEdge P i).axis = D at *
      generalize (slotEdge P i).at_ = p at *
      have hon : ∀ q, OnGridEdge g.globalPos g.step D p q → AgreeAt f f' q := fun q hq => hc q (onEdge_inCell hstep hedge hq)
      have hcc := hloc f f' D p hcr (fun q hq => (hon q hq).1)
      have hend := edgeEnd_world g.globalPos g.step D p
      have hst := hsv D p hcr
      have hset : (worldPos g.globalPos g.step p).set D ((worldPos g.globalPos g.step p).get D) = worldPos g.globalPos g.step p := by
        cases D <;> rfl
      have a0 : AgreeAt f f' (worldPos g.globalPos g.step p) := by
        have := hon _ (onEdge_iff hstep (c := (worldPos g.globalPos g.step p).get D) le_rfl (by linarith))
        rwa [hset] at this
      have a1 : AgreeAt f f' (worldPos g.globalPos g.step (edgeEnd D p)) := by
        rw [hend]
        exact hon _ (onEdge_iff hstep (by linarith) le_rfl)
      have ac := hon _ (onEdge_iff hstep hst.1 (by
        have := hst.2
        rwa [hend, vec3_get_set, if_pos rfl] at this))
      unfold edgeRecord
      simp only [vertexMaterial_le]
      simp only [hcc, a0.1, a1.1, a0.2.2, a1.2.2, ac.2.1]
    rw [heq]

theorem clean_shown (nrm : Vec3 ℝ → Vec3 ℝ) {P : IVec3} (hP : CellIn g.maxCoord P) (hc : CleanCell f f' g.globalPos g.step P) :
    cellShown nrm gf' P = cellShown nrm gf P := by
  unfold cellShown
  rw [clean_mask hg hstep hf hf' h h' hP hc]
  apply List.map_congr_left
  intro t ht
  obtain ⟨-, -, -, -, htab⟩ := C14_triangle_table.2 _ (cellMask_lt gf P)
  obtain ⟨l1, l2, l3, -⟩ := htab t ht
  rw [clean_vertex hg hstep hf hf' hloc hsv h h' nrm hP hc l1, clean_vertex hg hstep hf hf' hloc hsv h h' nrm hP hc l2,
    clean_vertex hg hstep hf hf' hloc hsv h h' nrm hP hc l3]

end

open Classical in
theorem clean_cells (hg : g.Reachable) (hstep : 0 < g.step) (hf : ProperField f) (hf' : ProperField f')
    (h : g.fill f sv = some gf) (h' : g.fill f' sv = some gf') :
    (mcCells gf').filter (fun P => decide (CleanCell f f' g.globalPos g.step P)) =
      (mcCells gf).filter (fun P => decide (CleanCell f f' g.globalPos g.step P)) := by
  obtain ⟨m1, m2, -, -, -, -, hs, hh⟩ := clean_max hg hf hf' h h'
  have hF := C07_filled hg hf h
  have hF' := C07_filled hg hf' h'
  unfold mcCells
  rw [List.filter_filter, List.filter_filter]
  have hbase : (List.range gf'.dataSize).filterMap gf'.indexToPoint = (List.range gf.dataSize).filterMap gf.indexToPoint := by
    unfold Grid.dataSize Grid.indexToPoint
    rw [hs, hh]
  rw [hbase]
  apply List.filter_congr
  intro P _
  by_cases hc : CleanCell f f' g.globalPos g.step P
  swap
  · simp [hc]
  rw [m1, m2]
  by_cases hP : CellIn g.maxCoord P
  swap
  · simp [hP]
  simp only [hc, hP, decide_true, Bool.true_and]
  rw [Bool.eq_iff_iff, List.any_eq_true, List.any_eq_true]
  refine exists_congr fun i => and_congr_right fun hi => ?_
  rw [List.mem_range] at hi
  rw [vid_isSome hF (by rw [m1]; exact hP) hi, vid_isSome hF' (by rw [m2]; exact hP) hi, clean_mask hg hstep hf hf' h h' hP hc]

/-- C83 (locality).  Two proper fields that differ only inside the region `U` are polygonised on the same grid.  Then the meshes
have a common part `A` (with all positions, normals and materials), and every other triangle of either mesh lies in a cell of the
grid that contains a point of `U`. -/
theorem C83_edit (hg : g.Reachable) (hstep : 0 < g.step) (hf : ProperField f) (hf' : ProperField f')
    (hloc : LocalFinder sv g.globalPos g.step) (hsv : StaysOnEdges f sv g.globalPos g.step)
    (hsv' : StaysOnEdges f' sv g.globalPos g.step) {U : Set (Vec3 ℝ)} (hU : ∀ q, q ∉ U → AgreeAt f f' q)
    (h : g.fill f sv = some gf) (h' : g.fill f' sv = some gf') (nrm : Vec3 ℝ → Vec3 ℝ) {r r' : PlacedMesh ℝ}
    (hr : marchingCubes nrm gf = some r) (hr' : marchingCubes nrm gf' = some r') :
    r'.globalPos = r.globalPos ∧ r'.globalScale = r.globalScale ∧
    ∃ A B B', (shownTriangles r).Perm (A ++ B) ∧ (shownTriangles r').Perm (A ++ B') ∧
      (∀ t ∈ B, ∃ P, CellIn g.maxCoord P ∧ (∃ q ∈ U, InWorldCell g.globalPos g.step P q) ∧ TriangleInCell r P t) ∧
      (∀ t ∈ B', ∃ P, CellIn g.maxCoord P ∧ (∃ q ∈ U, InWorldCell g.globalPos g.step P q) ∧ TriangleInCell r' P t) := by
  classical
  obtain ⟨m1, m2, p1, p2, s1, s2, -⟩ := clean_max hg hf hf' h h'
  have hF := C07_filled hg hf h
  have hF' := C07_filled hg hf' h'
  have e1 := hr
  have e2 := hr'
  rw [mc_result hF, Option.some.injEq] at e1
  rw [mc_result hF', Option.some.injEq] at e2
  refine ⟨by rw [← e1, ← e2]; exact p2.trans p1.symm, by rw [← e1, ← e2]; exact s2.trans s1.symm, ?_⟩
  have dirty : ∀ {f : ScalarField ℝ} {gf : Grid ℝ} {r : PlacedMesh ℝ}, ProperField f → StaysOnEdges f sv g.globalPos g.step →
      g.fill f sv = some gf → marchingCubes nrm gf = some r → gf.maxCoord = g.maxCoord → ∀ (c : IVec3 → Prop), 
      (∀ P, ¬ c P → ∃ q ∈ U, InWorldCell g.globalPos g.step P q) →
      ∀ t ∈ ((mcCells gf).filter (fun P => !decide (c P))).flatMap (cellShown nrm gf),
        ∃ P, CellIn g.maxCoord P ∧ (∃ q ∈ U, InWorldCell g.globalPos g.step P q) ∧ TriangleInCell r P t := by
    intro f gf r hf hsv h hr m c hc t ht
    have hF := C07_filled hg hf h
    obtain ⟨P, hP, ht⟩ := List.mem_flatMap.1 ht
    rw [List.mem_filter] at hP
    have hin := ((mem_mcCells hF).1 hP.1).1
    refine ⟨P, by rw [← m]; exact hin, hc P (by simpa using hP.2), ?_⟩
    unfold cellShown at ht
    obtain ⟨t, htm, rfl⟩ := List.mem_map.1 ht
    obtain ⟨-, -, -, -, htab⟩ := C14_triangle_table.2 _ (cellMask_lt gf P)
    obtain ⟨l1, l2, l3, n1, n2, n3, c1, c2, c3⟩ := htab t htm
    have vert : ∀ i, i < 12 → Spec.crosses (cellMask gf P) i → ∃ a, slotVertex nrm gf P i = some a ∧
        InWorldCell r.globalPos r.globalScale P (meshToWorld r a.position) := by
      intro i hi hci
      obtain ⟨k, hk, lk⟩ := vid_some hF hin hi hci
      have : slotVertex nrm gf P i = some (mcVertex nrm (edgeList gf)[k]) := by
        unfold slotVertex
        rw [hk, Option.bind_some, List.getElem?_eq_getElem lk]; rfl
      exact ⟨_, this, slotVertex_in hg hstep hf hsv h nrm hr hi this⟩
    obtain ⟨a, ha, va⟩ := vert _ l1 c1
    obtain ⟨b, hb, vb⟩ := vert _ l2 c2
    obtain ⟨d, hd, vd⟩ := vert _ l3 c3
    exact ⟨a, b, d, by rw [ha, hb, hd], va, vb, vd⟩
  have hdirty : ∀ P, ¬ CleanCell f f' g.globalPos g.step P → ∃ q ∈ U, InWorldCell g.globalPos g.step P q := by
    intro P hP
    unfold CleanCell at hP
    push Not at hP
    obtain ⟨q, hq, hn⟩ := hP
    exact ⟨q, by by_contra hU'; exact hn (hU q hU'), hq⟩
  have split : ∀ (l : List IVec3) (c : IVec3 → Prop) (F : IVec3 → List (Option (MeshVertex ℝ) × Option (MeshVertex ℝ) × Option (MeshVertex ℝ))),
      (l.flatMap F).Perm ((l.filter fun P => decide (c P)).flatMap F ++ (l.filter fun P => !decide (c P)).flatMap F) := by
    intro l c F
    rw [← List.flatMap_append]
    exact ((List.filter_append_perm _ l).symm).flatMap_right F
  refine ⟨_, _, _, by rw [shown_cells hF hr]; exact split _ (CleanCell f f' g.globalPos g.step) _, ?_,
    dirty hf hsv h hr m1 _ hdirty, dirty hf' hsv' h' hr' m2 _ hdirty⟩
  rw [shown_cells hF' hr']
  refine (split _ (CleanCell f f' g.globalPos g.step) _).trans ?_
  rw [clean_cells hg hstep hf hf' h h']
  refine List.Perm.of_eq (congrArg (· ++ _) ?_)
  apply flatMap_agree
  intro P hP
  rw [List.mem_filter] at hP
  refine clean_shown hg hstep hf hf' hloc hsv h h' nrm ?_ (by simpa using hP.2)
  rw [← m1]
  exact ((mem_mcCells hF).1 hP.1).1

/-- C83 (grid).  Points where the fields agree get the same material, and an edge on which they agree gets the same record (or
none) from both. -/
theorem C83_grid (hg : g.Reachable) (hstep : 0 < g.step) (hloc : LocalFinder sv g.globalPos g.step)
    (hsv : StaysOnEdges f sv g.globalPos g.step) (h : g.fill f sv = some gf) (h' : g.fill f' sv = some gf') :
    (∀ p, InCube g.maxCoord p → AgreeAt f f' (worldPos g.globalPos g.step p) → gf'.at p = gf.at p) ∧
    (∀ D p, (∀ q, OnGridEdge g.globalPos g.step D p q → AgreeAt f f' q) →
      ∀ e, e.lesser = p → (e ∈ gf'.edges D ↔ e ∈ gf.edges D)) := by
  constructor
  · intro p hp ha
    obtain ⟨g1, e1, -, k1⟩ := C06_fill_materials hg f sv
    obtain ⟨g2, e2, -, k2⟩ := C06_fill_materials hg f' sv
    rw [h] at e1; cases e1
    rw [h'] at e2; cases e2
    rw [k1 p hp, k2 p hp]
    simp only [vertexMaterial_le]
    rw [ha.1, ha.2.2]
  · intro D p hon e hep
    rw [(C07_fill_edges hg h D).1 e, (C07_fill_edges hg h' D).1 e]
    refine exists_congr fun p' => and_congr_right fun _ => ?_
    have key : p' = p → ((Crosses f' (worldPos g.globalPos g.step) D p ↔ Crosses f (worldPos g.globalPos g.step) D p) ∧
        (Crosses f (worldPos g.globalPos g.step) D p →
          edgeRecord f' sv (worldPos g.globalPos g.step) g.step D p = edgeRecord f sv (worldPos g.globalPos g.step) g.step D p)) := by
      rintro -
      have hend := edgeEnd_world g.globalPos g.step D p
      have hset : (worldPos g.globalPos g.step p).set D ((worldPos g.globalPos g.step p).get D) = worldPos g.globalPos g.step p := by
        cases D <;> rfl
      have a0 : AgreeAt f f' (worldPos g.globalPos g.step p) := by
        have := hon _ (onEdge_iff hstep (c := (worldPos g.globalPos g.step p).get D) le_rfl (by linarith))
        rwa [hset] at this
      have a1 : AgreeAt f f' (worldPos g.globalPos g.step (edgeEnd D p)) := by
        rw [hend]
        exact hon _ (onEdge_iff hstep (by linarith) le_rfl)
      refine ⟨by unfold Crosses; rw [a0.1, a1.1], fun hcr => ?_⟩
      have hst := hsv D p hcr
      have hcc := hloc f f' D p hcr (fun q hq => (hon q hq).1)
      have ac := hon _ (onEdge_iff hstep hst.1 (by
        have := hst.2
        rwa [hend, vec3_get_set, if_pos rfl] at this))
      unfold edgeRecord
      simp only [vertexMaterial_le]
      simp only [hcc, a0.1, a1.1, a0.2.2, a1.2.2, ac.2.1]
    constructor
    · rintro ⟨hc, rfl⟩
      obtain ⟨k1, k2⟩ := key hep
      obtain rfl : p' = p := hep
      exact ⟨k1.1 hc, k2 (k1.1 hc)⟩
    · rintro ⟨hc, rfl⟩
      obtain ⟨k1, k2⟩ := key hep
      obtain rfl : p' = p := hep
      exact ⟨k1.2 hc, (k2 hc).symm⟩

/-- Ground below the height 1/2. -/
noncomputable def groundField : ScalarField ℝ := ⟨fun q => q.z - 1 / 2, fun _ => ⟨0, 0, 1⟩, fun _ _ => .Stone⟩

/-- The region of a hole dug into the ground. -/
def holeRegion : Set (Vec3 ℝ) := {q | |q.x| < 1 / 2 ∧ |q.y| < 1 / 2}

open Classical in
/-- The ground with the hole. -/
noncomputable def dugField : ScalarField ℝ :=
  ⟨fun q => if q ∈ holeRegion then q.z + 1 / 2 else q.z - 1 / 2, fun _ => ⟨0, 0, 1⟩, fun _ _ => .Stone⟩

/-- Non-vacuity of C83: digging a hole turns a solid lattice point into air, and a cell far from it meets the surface in both. -/
example : ∃ (g gf gf' : Grid ℝ) (r r' : PlacedMesh ℝ), g.Reachable ∧ 0 < g.step ∧ ProperField groundField ∧ ProperField dugField ∧
    LocalFinder (bisectionFinder 4) g.globalPos g.step ∧ StaysOnEdges groundField (bisectionFinder 4) g.globalPos g.step ∧
    StaysOnEdges dugField (bisectionFinder 4) g.globalPos g.step ∧ (∀ q, q ∉ holeRegion → AgreeAt groundField dugField q) ∧
    g.fill groundField (bisectionFinder 4) = some gf ∧ g.fill dugField (bisectionFinder 4) = some gf' ∧
    marchingCubes id gf = some r ∧ marchingCubes id gf' = some r' ∧
    solidAt gf ⟨0, 0, 0⟩ = true ∧ solidAt gf' ⟨0, 0, 0⟩ = false ∧
    CellIn g.maxCoord ⟨1, 1, 0⟩ ∧ (∀ q, InWorldCell g.globalPos g.step ⟨1, 1, 0⟩ q → q ∉ holeRegion) ∧
    solidAt gf ⟨1, 1, 0⟩ = true ∧ solidAt gf ⟨1, 1, 1⟩ = false := by
  obtain ⟨g, e, hgp⟩ : ∃ g, Grid.mk' 4 (⟨0, 0, 0⟩ : Vec3 ℝ) 1 = .ok g ∧ g.globalPos = ⟨0, 0, 0⟩ ∧ g.step = 1 ∧ g.maxCoord = 2 := ⟨_, rfl, rfl, rfl, rfl⟩
  have hre : g.Reachable := .mk e
  have hp1 : ProperField groundField := by intro q _; simp [groundField]
  have hp2 : ProperField dugField := by intro q _; simp [dugField]
  obtain ⟨gf, hfill, ⟨-, hm1, -⟩, -⟩ := C06_fill_materials hre groundField (bisectionFinder 4)
  obtain ⟨gf', hfill', ⟨-, hm2, -⟩, -⟩ := C06_fill_materials hre dugField (bisectionFinder 4)
  obtain ⟨r, hr, -⟩ := C15_valid (C07_filled hre hp1 hfill) id
  obtain ⟨r', hr', -⟩ := C15_valid (C07_filled hre hp2 hfill') id
  have hstep : 0 < g.step := by rw [hgp.2.1]; norm_num
  have n1 : gf.maxCoord = 2 := Eq.trans hm1 hgp.2.2
  have n2 : gf'.maxCoord = 2 := Eq.trans hm2 hgp.2.2
  refine ⟨g, gf, gf', r, r', hre, hstep, hp1, hp2, (C83_finders 0 4 g.globalPos hstep).1, (C69_solvers _ 0 4 g.globalPos hstep).1,
    (C69_solvers _ 0 4 g.globalPos hstep).1, ?_, hfill, hfill', hr, hr', ?_, ?_, ?_, ?_, ?_, ?_⟩
  · intro q hq
    exact ⟨by simp [dugField, groundField, hq], rfl, fun _ => rfl⟩
  · rw [solidAt_fill hre hp1 hfill (by rw [n1]; decide), hgp.1, hgp.2.1]
    simp [worldPos, groundField]
  · rw [solidAt_fill hre hp2 hfill' (by rw [n2]; decide), hgp.1, hgp.2.1]
    simp [worldPos, dugField, holeRegion]
  · rw [hgp.2.2]; exact cellIn_iff.2 (by decide)
  · intro q hq hq'
    have := (hq .X).1
    rw [hgp.1, hgp.2.1] at this
    simp [worldPos, Vec3.get] at this
    have := (abs_lt.1 hq'.1).2
    linarith
  · rw [solidAt_fill hre hp1 hfill (by rw [n1]; decide), hgp.1, hgp.2.1]
    simp [worldPos, groundField]
  · rw [solidAt_fill hre hp1 hfill (by rw [n1]; decide), hgp.1, hgp.2.1]
    norm_num [worldPos, groundField]

end Isomesh
