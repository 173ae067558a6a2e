import Verif.Spec.Box
import Verif.Proofs.BoxQef
import Verif.Props.FlatDemo
import Verif.Props.DualVolume

/-! Dual vertices of axis-aligned boxes. -/

namespace Isomesh
open Spec

variable {f : ScalarField ℝ} {sv : ZeroFinder ℝ} {origin lo hi : Vec3 ℝ} {step : ℝ}

/-- World coordinate of a lattice plane. -/
noncomputable def planeCoord (origin : Vec3 ℝ) (step : ℝ) (a : Axis) (i : Int) : ℝ := (i : ℝ) * step + origin.get a

/-- The lattice plane meets the box. -/
def Meets (origin : Vec3 ℝ) (step : ℝ) (lo hi : Vec3 ℝ) (a : Axis) (i : Int) : Prop :=
  lo.get a ≤ planeCoord origin step a i ∧ planeCoord origin step a i ≤ hi.get a

open Classical in
/-- Coordinate of the dual vertex of a cell along an axis: that of the face of the box if the cell crosses one, else that of the middle. -/
noncomputable def boxCoord (origin : Vec3 ℝ) (step : ℝ) (lo hi : Vec3 ℝ) (a : Axis) (i : Int) : ℝ :=
  if Meets origin step lo hi a i then (if Meets origin step lo hi a (i + 1) then planeCoord origin step a i + step / 2 else hi.get a)
  else lo.get a

theorem boxSolid_iff (hf : BoxField f lo hi) (p : IVec3) :
    f.value (worldPos origin step p) ≤ 0 ↔ ∀ a, Meets origin step lo hi a (p.get a) := by
  rw [hf.inside]
  simp only [worldPos_get, Meets, planeCoord]

theorem crosses_box (hf : BoxField f lo hi) (D : Axis) (p : IVec3) :
    Crosses f (worldPos origin step) D p ↔ (∀ a, a ≠ D → Meets origin step lo hi a (p.get a)) ∧
      ¬ (Meets origin step lo hi D (p.get D) ↔ Meets origin step lo hi D (p.get D + 1)) := by
  unfold Crosses
  rw [boxSolid_iff hf, boxSolid_iff hf]
  simp only [edgeEnd_get]
  constructor
  · intro h
    have h1 : ∀ a, a ≠ D → Meets origin step lo hi a (p.get a) := by
      intro a ha
      by_contra hn
      apply h
      constructor
      · intro h'; exact absurd (h' a) hn
      · intro h'
        have := h' a
        rw [if_neg ha, add_zero] at this
        exact absurd this hn
    refine ⟨h1, fun hiff => h ⟨fun h' a => ?_, fun h' a => ?_⟩⟩
    · by_cases ha : a = D
      · subst ha; rw [if_pos rfl]; exact hiff.1 (h' a)
      · rw [if_neg ha, add_zero]; exact h' a
    · by_cases ha : a = D
      · subst ha
        have := h' a
        rw [if_pos rfl] at this
        exact hiff.2 this
      · exact h1 a ha
  · rintro ⟨h1, h2⟩ hiff
    apply h2
    constructor
    · intro hD
      have := hiff.1 (fun a => by
        by_cases ha : a = D
        · subst ha; exact hD
        · exact h1 a ha) D
      rwa [if_pos rfl] at this
    · intro hD
      exact hiff.2 (fun a => by
        by_cases ha : a = D
        · subst ha; rw [if_pos rfl]; exact hD
        · rw [if_neg ha, add_zero]; exact h1 a ha) D

/-- Edges of the unit cell. -/
def unitEdges : List LEdge :=
  [⟨.X, ⟨0, 0, 0⟩⟩, ⟨.X, ⟨0, 1, 0⟩⟩, ⟨.X, ⟨0, 0, 1⟩⟩, ⟨.X, ⟨0, 1, 1⟩⟩, ⟨.Y, ⟨0, 0, 0⟩⟩, ⟨.Y, ⟨1, 0, 0⟩⟩, ⟨.Y, ⟨0, 0, 1⟩⟩, ⟨.Y, ⟨1, 0, 1⟩⟩,
   ⟨.Z, ⟨0, 0, 0⟩⟩, ⟨.Z, ⟨1, 0, 0⟩⟩, ⟨.Z, ⟨0, 1, 0⟩⟩, ⟨.Z, ⟨1, 1, 0⟩⟩]

/-- Which of the two lattice planes of the cell along each axis meet the box. -/
structure CellSigns where
  lx : Bool
  ux : Bool
  ly : Bool
  uy : Bool
  lz : Bool
  uz : Bool

def CellSigns.low (s : CellSigns) : Axis → Bool
  | .X => s.lx | .Y => s.ly | .Z => s.lz

def CellSigns.up (s : CellSigns) : Axis → Bool
  | .X => s.ux | .Y => s.uy | .Z => s.uz

def CellSigns.has (s : CellSigns) (a : Axis) (i : Int) : Bool := if i = 0 then s.low a else s.up a

/-- The edge of the unit cell is crossed. -/
def CellSigns.cross (s : CellSigns) (e : LEdge) : Bool :=
  match e.axis with
  | .X => (s.lx != s.ux) && s.has .Y e.at_.y && s.has .Z e.at_.z
  | .Y => (s.ly != s.uy) && s.has .X e.at_.x && s.has .Z e.at_.z
  | .Z => (s.lz != s.uz) && s.has .X e.at_.x && s.has .Y e.at_.y

theorem cell_count (s : CellSigns) : (unitEdges.filter s.cross).length ≤ 4 := by
  obtain ⟨a, b, c, d, e, f⟩ := s
  revert a b c d e f
  decide

theorem cell_middle (s : CellSigns) (a : Axis) (h : s.low a = s.up a) :
    2 * ((unitEdges.filter s.cross).map fun e => e.at_.get a).sum = (unitEdges.filter s.cross).length := by
  obtain ⟨x, x', y, y', z, z'⟩ := s
  cases a <;> simp only [CellSigns.low, CellSigns.up] at h <;> subst h
  · revert x y y' z z'; decide
  · revert x x' y z z'; decide
  · revert x x' y y' z; decide

theorem edgeOfCell_iff (P : IVec3) (D : Axis) (p : IVec3) :
    EdgeOfCell P D p ↔ (⟨D, shift p (-P.x) (-P.y) (-P.z)⟩ : LEdge) ∈ unitEdges := by
  obtain ⟨a, b, c⟩ := P
  obtain ⟨x, y, z⟩ := p
  unfold EdgeOfCell unitEdges
  cases D <;> simp only [edgeVertices, cellVertices, shift, List.mem_cons, List.not_mem_nil, or_false, forall_eq_or_imp, forall_eq, IVec3.mk.injEq,
    LEdge.mk.injEq, reduceCtorEq, false_and, true_and, or_false, false_or] <;> omega


theorem cell_axis (s : CellSigns) (a : Axis) (h : s.low a ≠ s.up a) (hne : unitEdges.filter s.cross ≠ []) :
    ∃ e ∈ unitEdges.filter s.cross, e.axis = a := by
  obtain ⟨x, x', y, y', z, z'⟩ := s
  cases a <;> simp only [CellSigns.low, CellSigns.up] at h <;> revert x x' y y' z z' <;> decide

theorem forall_axis {Q : Axis → Prop} : (∀ a, Q a) ↔ Q .X ∧ Q .Y ∧ Q .Z :=
  ⟨fun h => ⟨h _, h _, h _⟩, fun ⟨h1, h2, h3⟩ a => by cases a <;> assumption⟩

open Classical in
/-- The signs of a cell. -/
noncomputable def boxSigns (origin : Vec3 ℝ) (step : ℝ) (lo hi : Vec3 ℝ) (P : IVec3) : CellSigns :=
  ⟨decide (Meets origin step lo hi .X P.x), decide (Meets origin step lo hi .X (P.x + 1)), decide (Meets origin step lo hi .Y P.y),
    decide (Meets origin step lo hi .Y (P.y + 1)), decide (Meets origin step lo hi .Z P.z), decide (Meets origin step lo hi .Z (P.z + 1))⟩

theorem boxSigns_low (P : IVec3) (a : Axis) : (boxSigns origin step lo hi P).low a = true ↔ Meets origin step lo hi a (P.get a) := by
  cases a <;> simp [boxSigns, CellSigns.low, IVec3.get]

theorem boxSigns_up (P : IVec3) (a : Axis) : (boxSigns origin step lo hi P).up a = true ↔ Meets origin step lo hi a (P.get a + 1) := by
  cases a <;> simp [boxSigns, CellSigns.up, IVec3.get]

theorem signs_eq (P : IVec3) (a : Axis) : (boxSigns origin step lo hi P).low a = (boxSigns origin step lo hi P).up a ↔
    (Meets origin step lo hi a (P.get a) ↔ Meets origin step lo hi a (P.get a + 1)) := by
  rw [← boxSigns_low, ← boxSigns_up, Bool.eq_iff_iff]

theorem signs_cross (hf : BoxField f lo hi) (P : IVec3) {e : LEdge} (he : e ∈ unitEdges) :
    (boxSigns origin step lo hi P).cross e = true ↔ Crosses f (worldPos origin step) e.axis (shift e.at_ P.x P.y P.z) := by
  rw [crosses_box hf, forall_axis]
  simp only [unitEdges, List.mem_cons, List.not_mem_nil, or_false] at he
  rcases he with rfl | rfl | rfl | rfl | rfl | rfl | rfl | rfl | rfl | rfl | rfl | rfl <;>
    simp [CellSigns.cross, CellSigns.has, CellSigns.low, CellSigns.up, boxSigns, shift, IVec3.get, add_comm, bne_iff_ne, decide_eq_decide] <;> tauto

/-- The position solves the system of the planes of all stored edges of a cell. -/
def SolvedAt (env : DcEnv ℝ) (g : Grid ℝ) (solver : Qef ℝ 3) (P : IVec3) (x : VecN ℝ 3) : Prop :=
  ∃ (es : List (GridEdge ℝ)) (q0 q1 q2 : Qef ℝ 3), es.Nodup ∧ (∀ e, e ∈ es ↔ e ∈ edgeList g ∧ EdgeOfCell P e.axis e.lesser) ∧
    q0.pinvTolerance = solver.pinvTolerance ∧ q0.jacobiTolerance = solver.jacobiTolerance ∧
    runOps qef3Rows 30 env.tiny q0 (.reset :: es.map (planeOp env.eps)) = some q1 ∧
    q1.solve qef3Rows env.tiny (cellLo P) (cellHi P) = some (q2, x)

theorem DualVertex.solvedAt {env : DcEnv ℝ} {g : Grid ℝ} {solver : Qef ℝ 3} {P : IVec3} {v : MeshVertex ℝ} (h : DualVertex env g solver P v) :
    SolvedAt env g solver P v.position.toVecN := by
  obtain ⟨es, q0, q1, q2, x, h1, h2, h3, h4, h5, h6, -⟩ := h.solution
  exact ⟨es, q0, q1, q2, h1, h2, h3.1, h3.2.1, h4, by rw [h6]; exact h5⟩

/-- Number of an axis. -/
def axisFin : Axis → Fin 3
  | .X => 0 | .Y => 1 | .Z => 2

theorem axisFin_inj {a b : Axis} (h : axisFin a = axisFin b) : a = b := by
  cases a <;> cases b <;> simp [axisFin] at h ⊢

theorem toVecN_axis (v : Vec3 ℝ) (a : Axis) : v.toVecN (axisFin a) = v.get a := by cases a <;> rfl

theorem axisFin_surj (i : Fin 3) : ∃ a, axisFin a = i := by
  fin_cases i
  · exact ⟨.X, rfl⟩
  · exact ⟨.Y, rfl⟩
  · exact ⟨.Z, rfl⟩

theorem unit_axis (D : Axis) {s : ℝ} (hs : s ≠ 0) :
    edgeNormal 0 ((⟨0, 0, 0⟩ : Vec3 ℝ).set D s) = (⟨0, 0, 0⟩ : Vec3 ℝ).set D (if 0 < s then 1 else -1) := by
  have hne : (⟨0, 0, 0⟩ : Vec3 ℝ).set D s ≠ ⟨0, 0, 0⟩ := by
    cases D <;> simp [Vec3.set, hs]
  rw [edgeNormal_zero hne]
  have hl : ((⟨0, 0, 0⟩ : Vec3 ℝ).set D s).length = |s| := by
    have e : ∀ t : ℝ, t = s * s → Real.sqrt t = |s| := by
      intro t ht
      rw [ht, Real.sqrt_mul_self_eq_abs]
    cases D <;> simp only [Vec3.set, Vec3.length, elem_sqrt] <;> apply e <;> ring
  have hd : s / |s| = if 0 < s then 1 else -1 := by
    split
    · rename_i h; rw [abs_of_pos h, div_self hs]
    · rename_i h
      rw [abs_of_neg (lt_of_le_of_ne (not_lt.1 h) hs), div_neg, div_self hs]
  rw [unitVec, hl, ← hd]
  cases D <;> simp [Vec3.set]

theorem meets_strict (hoff : OffLattice origin step lo hi) {a : Axis} {i : Int} (h : Meets origin step lo hi a i) :
    lo.get a < planeCoord origin step a i ∧ planeCoord origin step a i < hi.get a :=
  ⟨lt_of_le_of_ne h.1 (Ne.symm (hoff a i).1), lt_of_le_of_ne h.2 (hoff a i).2⟩

theorem planeCoord_succ (a : Axis) (i : Int) : planeCoord origin step a (i + 1) = planeCoord origin step a i + step := by
  unfold planeCoord; push_cast; ring

/-- The coordinate of the vertex of a cell is in the cell, if one of the planes of the cell meets the box. -/
theorem boxCoord_cell (hstep : 0 < step) {a : Axis} {i : Int} (h : Meets origin step lo hi a i ∨ Meets origin step lo hi a (i + 1)) :
    planeCoord origin step a i ≤ boxCoord origin step lo hi a i ∧ boxCoord origin step lo hi a i ≤ planeCoord origin step a (i + 1) := by
  have hs := planeCoord_succ (origin := origin) (step := step) a i
  unfold boxCoord
  by_cases h1 : Meets origin step lo hi a i
  · rw [if_pos h1]
    by_cases h2 : Meets origin step lo hi a (i + 1)
    · rw [if_pos h2]
      constructor <;> linarith
    · rw [if_neg h2]
      refine ⟨h1.2, ?_⟩
      by_contra hcon
      exact h2 ⟨by linarith [h1.1], (not_le.1 hcon).le⟩
  · rw [if_neg h1]
    have h2 := h.resolve_left h1
    refine ⟨?_, h2.1⟩
    by_contra hcon
    exact h1 ⟨(not_le.1 hcon).le, by linarith [h2.2]⟩

section
variable {g g' : Grid ℝ}

/-- Stored edges of a box. -/
theorem box_edge (hg : g.Reachable) (hstep : 0 < g.step) (hf : BoxField f lo hi) (hp : ProperField f) (h : g.fill f sv = some g')
    (hoff : OffLattice g.globalPos g.step lo hi) (hfind : FindsFaces f sv g.globalPos g.step lo hi) {e : GridEdge ℝ} (he : e ∈ edgeList g') :
    Crosses f (worldPos g.globalPos g.step) e.axis e.lesser ∧
    (∃ s : ℝ, (s = 1 ∨ s = -1) ∧ edgeNormal 0 e.gradient = (⟨0, 0, 0⟩ : Vec3 ℝ).set e.axis s) ∧
    (∀ a, a ≠ e.axis → e.surfacePoint.get a = e.lesser.get a) ∧
    e.surfacePoint.get e.axis * g.step + g.globalPos.get e.axis =
      (open Classical in if Meets g.globalPos g.step lo hi e.axis (e.lesser.get e.axis) then hi.get e.axis else lo.get e.axis) := by
  classical
  have hF := C07_filled hg hp h
  obtain ⟨g'', hfill, ⟨-, -, hpos, hst⟩, -⟩ := C06_fill_materials hg f sv
  rw [h] at hfill; cases hfill
  have hm := (mem_edgeList hF).1 he
  obtain ⟨p, hpin, hcr, hep⟩ := ((C07_fill_edges hg h e.axis).1 e).1 hm
  have hpl : e.lesser = p := by rw [hep]; rfl
  have hposn := C15_vertex_position hg h hstep.ne' hm
  have hc := hfind _ _ hcr
  have hcb := (crosses_box hf _ _).1 hcr
  have hsol : f.value (worldPos g.globalPos g.step p) ≤ 0 ↔ Meets g.globalPos g.step lo hi e.axis (p.get e.axis) := by
    rw [boxSolid_iff hf]
    constructor
    · intro h'; exact h' _
    · intro h' a
      by_cases ha : a = e.axis
      · rw [ha]; exact h'
      · exact hcb.1 a ha
  have hc' : crossingCoord f sv (worldPos g.globalPos g.step) e.axis p =
      if Meets g.globalPos g.step lo hi e.axis (p.get e.axis) then hi.get e.axis else lo.get e.axis := by
    rw [hc]
    by_cases hh : Meets g.globalPos g.step lo hi e.axis (p.get e.axis)
    · rw [if_pos hh, if_pos (hsol.2 hh)]
    · rw [if_neg hh, if_neg fun h' => hh (hsol.1 h')]
  rw [hpl] at hposn ⊢
  have hget : ∀ a, e.surfacePoint.get a * g.step + g.globalPos.get a =
      if a = e.axis then crossingCoord f sv (worldPos g.globalPos g.step) e.axis p else p.get a * g.step + g.globalPos.get a := by
    intro a
    have : (g'.localToGlobal e.surfacePoint).get a = _ := congrArg (fun v : Vec3 ℝ => v.get a) hposn
    rw [vec3_get_set, worldPos_get] at this
    rw [← this, ← hpos, ← hst]
    cases a <;> rfl
  refine ⟨hcr, ?_, ?_, ?_⟩
  · have hgr : e.gradient = f.grad ((worldPos g.globalPos g.step p).set e.axis (crossingCoord f sv (worldPos g.globalPos g.step) e.axis p)) := by
      conv_lhs => rw [hep]
      rfl
    have hother : ∀ a, a ≠ e.axis → lo.get a < ((worldPos g.globalPos g.step p).set e.axis (crossingCoord f sv (worldPos g.globalPos g.step) e.axis p)).get a ∧
        ((worldPos g.globalPos g.step p).set e.axis (crossingCoord f sv (worldPos g.globalPos g.step) e.axis p)).get a < hi.get a := by
      intro a ha
      rw [vec3_get_set, if_neg ha, worldPos_get]
      exact meets_strict hoff (hcb.1 a ha)
    have hD : ((worldPos g.globalPos g.step p).set e.axis (crossingCoord f sv (worldPos g.globalPos g.step) e.axis p)).get e.axis =
        crossingCoord f sv (worldPos g.globalPos g.step) e.axis p := by rw [vec3_get_set, if_pos rfl]
    by_cases hh : Meets g.globalPos g.step lo hi e.axis (p.get e.axis)
    · rw [if_pos hh] at hc'
      obtain ⟨s, hs, hs'⟩ := hf.high e.axis _ (by rw [hD, hc']) hother
      refine ⟨1, Or.inl rfl, ?_⟩
      rw [hgr, hs', unit_axis _ hs.ne', if_pos hs]
    · rw [if_neg hh] at hc'
      obtain ⟨s, hs, hs'⟩ := hf.low e.axis _ (by rw [hD, hc']) hother
      refine ⟨-1, Or.inr rfl, ?_⟩
      rw [hgr, hs', unit_axis _ (by linarith), if_neg (by linarith)]
  · intro a ha
    have := hget a
    rw [if_neg ha] at this
    have := mul_right_cancel₀ hstep.ne' (add_right_cancel this)
    exact this
  · rw [hget, if_pos rfl, hc']

/-- The dual vertex of a cell of a box. -/
theorem box_position (hg : g.Reachable) (hstep : 0 < g.step) (hf : BoxField f lo hi) (hp : ProperField f) (h : g.fill f sv = some g')
    (hoff : OffLattice g.globalPos g.step lo hi) (hfind : FindsFaces f sv g.globalPos g.step lo hi) {env : DcEnv ℝ} {solver : Qef ℝ 3}
    (ho : ExactOptions env solver) {P : IVec3} (hP : CellIn g'.maxCoord P) {x : VecN ℝ 3} (hs : SolvedAt env g' solver P x)
    (hne : ∃ D p, Crosses f (worldPos g.globalPos g.step) D p ∧ EdgeOfCell P D p) (a : Axis) :
    x (axisFin a) * g.step + g.globalPos.get a = boxCoord g.globalPos g.step lo hi a (P.get a) := by
  classical
  have hF := C07_filled hg hp h
  obtain ⟨g'', hfill, ⟨-, hhalf, hpos, hst⟩, -⟩ := C06_fill_materials hg f sv
  rw [h] at hfill; cases hfill
  have hm : g'.maxCoord = g.maxCoord := hhalf
  obtain ⟨es, q0, q1, q2, hnd, hes, hq1, hq2, hrun, hsol⟩ := hs
  have hedge := fun e (he : e ∈ es) => box_edge hg hstep hf hp h hoff hfind ((hes e).1 he).1
  obtain ⟨sg, hsg⟩ : ∃ sg, sg = boxSigns g.globalPos g.step lo hi P := ⟨_, rfl⟩
  -- the edges of the cell
  let rel : GridEdge ℝ → LEdge := fun e => ⟨e.axis, shift e.lesser (-P.x) (-P.y) (-P.z)⟩
  have hback : ∀ p : IVec3, shift (shift p (-P.x) (-P.y) (-P.z)) P.x P.y P.z = p := fun p => (shift_back p P.x P.y P.z).2
  have hforth : ∀ p : IVec3, shift (shift p P.x P.y P.z) (-P.x) (-P.y) (-P.z) = p := fun p => (shift_back p P.x P.y P.z).1
  have hperm : (es.map rel).Perm (unitEdges.filter sg.cross) := by
    refine (List.perm_ext_iff_of_nodup ?_ ?_).2 ?_
    · rw [List.nodup_iff_pairwise_ne, List.pairwise_map]
      have hpw := edgeList_nodup hF
      refine List.Pairwise.imp_of_mem ?_ hnd
      intro e1 e2 m1 m2 hne' heq
      apply hne'
      have h1 : e1.axis = e2.axis := congrArg LEdge.axis heq
      have h2 : e1.lesser = e2.lesser := by
        have := congrArg LEdge.at_ heq
        dsimp only [rel] at this
        rw [← hback e1.lesser, this, hback]
      have k1 := (mem_edgeList hF).1 ((hes e1).1 m1).1
      have k2 := (mem_edgeList hF).1 ((hes e2).1 m2).1
      obtain ⟨p1, -, -, r1⟩ := ((C07_fill_edges hg h _).1 e1).1 k1
      obtain ⟨p2, -, -, r2⟩ := ((C07_fill_edges hg h _).1 e2).1 k2
      have l1 : e1.lesser = p1 := by rw [r1]; rfl
      have l2 : e2.lesser = p2 := by rw [r2]; rfl
      rw [r1, r2, ← l1, ← l2, h1, h2]
    · exact List.Nodup.filter _ (by decide)
    · intro u
      rw [List.mem_map, List.mem_filter]
      constructor
      · rintro ⟨e, he, rfl⟩
        have hu := (edgeOfCell_iff P e.axis e.lesser).1 ((hes e).1 he).2
        refine ⟨hu, ?_⟩
        rw [hsg, signs_cross hf P hu]
        dsimp only [rel]
        rw [hback]
        exact (hedge e he).1
      · rintro ⟨hu, hcr⟩
        rw [hsg, signs_cross hf P hu] at hcr
        have hec : EdgeOfCell P u.axis (shift u.at_ P.x P.y P.z) := by
          rw [edgeOfCell_iff, hforth]; exact hu
        have hmem : edgeRecord f sv (worldPos g.globalPos g.step) g.step u.axis (shift u.at_ P.x P.y P.z) ∈ g'.edges u.axis :=
          ((C07_fill_edges hg h u.axis).1 _).2 ⟨_, fun v hv => by rw [← hm]; exact hP v (hec v hv), hcr, rfl⟩
        have hax := hF.edge_axis _ _ hmem
        refine ⟨_, (hes _).2 ⟨(mem_edgeList hF).2 (by rw [hax]; exact hmem), ?_⟩, ?_⟩
        · rw [hax]; exact hec
        · dsimp only [rel]
          rw [hax]
          have : (edgeRecord f sv (worldPos g.globalPos g.step) g.step u.axis (shift u.at_ P.x P.y P.z)).lesser = shift u.at_ P.x P.y P.z := rfl
          rw [this, hforth]
  have hlen : es.length = (unitEdges.filter sg.cross).length := by rw [← hperm.length_eq, List.length_map]
  have hlen4 : es.length ≤ 4 := by rw [hlen]; exact cell_count sg
  -- there is an edge
  obtain ⟨D0, p0, hcr0, hec0⟩ := hne
  have hu0 := (edgeOfCell_iff P D0 p0).1 hec0
  have hfne : unitEdges.filter sg.cross ≠ [] := by
    intro h0
    have : (⟨D0, shift p0 (-P.x) (-P.y) (-P.z)⟩ : LEdge) ∈ unitEdges.filter sg.cross := by
      refine List.mem_filter.2 ⟨hu0, ?_⟩
      rw [hsg, signs_cross hf P hu0]
      dsimp only
      rw [hback]; exact hcr0
    rw [h0] at this; cases this
  have hpos0 : 0 < es.length := by rw [hlen]; exact List.length_pos_iff.2 hfne
  -- solution of the system
  have hlesser : ∀ (D : Axis) (p : IVec3), EdgeOfCell P D p → p.get D = P.get D ∧ ∀ b, p.get b = P.get b ∨ p.get b = P.get b + 1 := by
    intro D p hq
    have hc1 := fun A => cellVertices_get (hq p (by cases D <;> simp [edgeVertices])) A
    have hc2 := cellVertices_get (hq (edgeEnd D p) (by cases D <;> simp [edgeVertices, edgeEnd])) D
    rw [edgeEnd_get, if_pos rfl] at hc2
    have h1 := hc1 D
    exact ⟨by omega, fun b => by have := hc1 b; omega⟩
  let C : Axis → ℝ := fun b => ((if Meets g.globalPos g.step lo hi b (P.get b) then hi.get b else lo.get b) - g.globalPos.get b) / g.step
  have hx := axis_run (M := qef3Rows) (bits := 30) ho.tiny_pos ho.tiny_le (by decide) (pt := fun e : GridEdge ℝ => e.surfacePoint.toVecN)
    (n := fun e => (edgeNormal env.eps e.gradient).toVecN) (l := es) (ax := fun e => axisFin e.axis)
    (c := fun i => if i = 0 then C .X else if i = 1 then C .Y else C .Z) (by unfold qef3Rows; omega) ?_ ?_ (by rw [hq1]; exact ho.pinv_pos)
    (by rw [hq1]; exact ho.pinv_le) (by rw [hq2]; exact ho.jacobi) hrun hsol
  rotate_left
  · intro e he
    obtain ⟨-, ⟨s, hs1, hs2⟩, -⟩ := hedge e he
    refine ⟨s, hs1, fun i => ?_⟩
    beta_reduce
    rw [ho.eps, hs2]
    obtain ⟨b, rfl⟩ := axisFin_surj i
    rw [toVecN_axis, vec3_get_set]
    by_cases hb : b = e.axis
    · rw [if_pos hb, if_pos (by rw [hb])]
    · rw [if_neg hb, if_neg fun h' => hb (axisFin_inj h').symm]
      cases b <;> rfl
  · intro e he
    obtain ⟨-, -, -, hpt⟩ := hedge e he
    have hC : (if axisFin e.axis = 0 then C .X else if axisFin e.axis = 1 then C .Y else C .Z) = C e.axis := by
      cases e.axis <;> rfl
    rw [hC, toVecN_axis]
    simp only [C]
    rw [eq_div_iff hstep.ne', ← (hlesser _ _ ((hes e).1 he).2).1]
    linarith
  have hxa : x (axisFin a) = min (max (if ∃ e ∈ es, axisFin e.axis = axisFin a then C a else (es.map fun e => e.surfacePoint.toVecN (axisFin a)).sum / es.length) (P.get a)) (P.get a + 1) := by
    rw [hx]
    unfold Qef.clampV
    cases a <;> rfl
  have hone : Meets g.globalPos g.step lo hi a (P.get a) ∨ Meets g.globalPos g.step lo hi a (P.get a + 1) := by
    obtain ⟨k1, k2⟩ := (crosses_box hf D0 p0).1 hcr0
    obtain ⟨j1, j2⟩ := hlesser D0 p0 hec0
    by_cases ha : a = D0
    · subst ha
      rw [j1] at k2
      by_contra hcon
      push Not at hcon
      exact k2 ⟨fun h' => absurd h' hcon.1, fun h' => absurd h' hcon.2⟩
    · have := k1 a ha
      rcases j2 a with e | e
      · rw [e] at this; exact Or.inl this
      · rw [e] at this; exact Or.inr this
  have hval : (if ∃ e ∈ es, axisFin e.axis = axisFin a then C a else (es.map fun e => e.surfacePoint.toVecN (axisFin a)).sum / es.length) * g.step +
      g.globalPos.get a = boxCoord g.globalPos g.step lo hi a (P.get a) := by
    by_cases hex : ∃ e ∈ es, axisFin e.axis = axisFin a
    · rw [if_pos hex]
      obtain ⟨e, he, hea⟩ := hex
      have hea := axisFin_inj hea
      obtain ⟨k1, k2⟩ := (crosses_box hf _ _).1 (hedge e he).1
      rw [(hlesser _ _ ((hes e).1 he).2).1, hea] at k2
      simp only [C]
      rw [div_mul_cancel₀ _ hstep.ne', sub_add_cancel]
      unfold boxCoord
      by_cases h1 : Meets g.globalPos g.step lo hi a (P.get a)
      · rw [if_pos h1, if_pos h1, if_neg fun h2 => k2 ⟨fun _ => h2, fun _ => h1⟩]
      · rw [if_neg h1, if_neg h1]
    · rw [if_neg hex]
      have hsame : sg.low a = sg.up a := by
        by_contra hcon
        obtain ⟨u, hu, hua⟩ := cell_axis sg a hcon hfne
        obtain ⟨e, he, rfl⟩ := List.mem_map.1 (hperm.mem_iff.2 hu)
        exact hex ⟨e, he, by rw [← hua]⟩
      have hmid := cell_middle sg a hsame
      rw [hsg, signs_eq] at hsame
      have hboth : Meets g.globalPos g.step lo hi a (P.get a) ∧ Meets g.globalPos g.step lo hi a (P.get a + 1) := by
        rcases hone with h' | h'
        · exact ⟨h', hsame.1 h'⟩
        · exact ⟨hsame.2 h', h'⟩
      unfold boxCoord
      rw [if_pos hboth.1, if_pos hboth.2]
      have hsum : (es.map fun e => e.surfacePoint.toVecN (axisFin a)).sum = es.length * ((P.get a : ℝ) + 1 / 2) := by
        have e1 : (es.map fun e => e.surfacePoint.toVecN (axisFin a)) = es.map fun e => (((rel e).at_.get a : Int) : ℝ) + P.get a := by
          apply List.map_congr_left
          intro e he
          rw [toVecN_axis, (hedge e he).2.2.1 a fun h' => hex ⟨e, he, by rw [h']⟩]
          dsimp only [rel]
          cases a <;> simp [shift, IVec3.get]
        have e2 : ∀ l : List (GridEdge ℝ), (l.map fun e => (((rel e).at_.get a : Int) : ℝ) + P.get a).sum =
            (((l.map rel).map fun u => u.at_.get a).sum : Int) + l.length * (P.get a : ℝ) := by
          intro l
          induction l with
          | nil => simp
          | cons e l ih =>
            rw [List.map_cons, List.sum_cons, ih]
            simp only [List.map_cons, List.sum_cons, List.length_cons]
            push_cast
            ring
        rw [e1, e2, (hperm.map fun u => u.at_.get a).sum_eq]
        have hmid' : (2 : ℝ) * (((unitEdges.filter sg.cross).map fun e => e.at_.get a).sum : Int) = es.length := by
          rw [hlen]; exact_mod_cast hmid
        linarith
      rw [hsum, mul_div_assoc, mul_comm, ← mul_assoc]
      have : (es.length : ℝ) ≠ 0 := by exact_mod_cast hpos0.ne'
      unfold planeCoord
      field_simp
      ring
  have hcell := boxCoord_cell hstep hone
  rw [← hval] at hcell ⊢
  rw [hxa]
  obtain ⟨w, hw⟩ : ∃ w, w = (if ∃ e ∈ es, axisFin e.axis = axisFin a then C a else (es.map fun e => e.surfacePoint.toVecN (axisFin a)).sum / es.length) := ⟨_, rfl⟩
  rw [← hw] at hcell ⊢
  unfold planeCoord at hcell
  push_cast at hcell
  have w1 : (P.get a : ℝ) ≤ w := le_of_mul_le_mul_right (by linarith [hcell.1]) hstep
  have w2 : w ≤ P.get a + 1 := le_of_mul_le_mul_right (by linarith [hcell.2]) hstep
  rw [max_eq_left w1, min_eq_left w2]

end

end Isomesh
