import Verif.Props.MarchingCubes
import Verif.Props.Mesh

/-! C17: orientation of the marching cubes surface. -/

set_option linter.unusedSectionVars false

namespace Isomesh
open Spec

/-! ### Table facts -/

/-- For sides on face `f` starting at edge `i`: must the lesser end of the edge be the solid one? -/
def orientBit (f i : Nat) : Bool :=
  let w : Axis := match faceAxis f, slotAxis i with
    | .X, .Y => .Z
    | .X, .Z => .Y
    | .Y, .X => .Z
    | .Y, .Z => .X
    | .Z, .X => .Y
    | _, _ => .X
  -- parity of (face axis, edge axis, third axis), side of the face, position of the edge in the face
  let cyc : Bool := match faceAxis f, slotAxis i with
    | .X, .Y => true
    | .Y, .Z => true
    | .Z, .X => true
    | _, _ => false
  (cyc ^^ decide (faceSide f = 1)) ^^ decide ((slotOff i).get w = 1)

/-- Table check: sides on faces have the solid ends of their starting edges on the prescribed side. -/
def checkOrient : Bool :=
  (List.range 256).all fun m => (sides (mcTriangles m)).all fun s => (List.range 6).all fun f =>
    !(inFace f s.1 && inFace f s.2) || (solid m (edgeCorner s.1 0) == orientBit f s.1)

theorem checkOrient_true : checkOrient = true := by decide +kernel

theorem orient_table {m : Nat} (hm : m < 256) {i j f : Nat} (hf : f < 6) (hs : (i, j) ∈ sides (mcTriangles m))
    (hi : inFace f i = true) (hj : inFace f j = true) : solid m (edgeCorner i 0) = orientBit f i := by
  have h := checkOrient_true
  unfold checkOrient at h
  have h1 := List.all_eq_true.1 (List.all_eq_true.1 (List.all_eq_true.1 h m (List.mem_range.2 hm)) _ hs) f
    (List.mem_range.2 hf)
  simp only [hi, hj, Bool.and_self, Bool.not_true, Bool.false_or, beq_iff_eq] at h1
  exact h1

variable {K : Type} [Field K] [LinearOrder K] [IsStrictOrderedRing K]

/-- Conversion of lattice points. -/
def Spec.toVec (p : IVec3) : Vec3 K := ⟨(p.x : K), (p.y : K), (p.z : K)⟩

/-- Unit vector along `a`, or its negative. -/
def Spec.axisVec (a : Axis) (positive : Bool) : Vec3 K :=
  (⟨0, 0, 0⟩ : Vec3 K).set a (if positive then 1 else -1)

/-- The solid end of a stored edge. -/
def Spec.solidEnd (e : GridEdge K) : IVec3 := if e.lesserSolid then e.lesser else edgeEnd e.axis e.lesser

/-- Point at parameter `t` of slot `i`, relative to the cell. -/
def relPoint (i : Nat) (t : K) : Vec3 K := ((toVec (slotOff i) : Vec3 K)).set (slotAxis i)
  ((toVec (slotOff i) : Vec3 K).get (slotAxis i) + t)

/-- End of slot `i`, relative to the cell. -/
def relEnd (i : Nat) (lesser : Bool) : Vec3 K := toVec (cornerPos (edgeCorner i (if lesser then 0 else 1)))

/-- All (face, edge, other edge) combinations. -/
def faceTriples : List (Nat × Nat × Nat) :=
  (List.range 6).flatMap fun f => (List.range 12).flatMap fun i => (List.range 12).filterMap fun j =>
    if inFace f i && inFace f j && decide (i ≠ j) then some (f, i, j) else none

theorem faceTriples_eq : faceTriples = [
  (0, 4, 5), (0, 4, 8), (0, 4, 10), (0, 5, 4), (0, 5, 8), (0, 5, 10), (0, 8, 4), (0, 8, 5), (0, 8, 10), (0, 10, 4),
  (0, 10, 5), (0, 10, 8), (1, 6, 7), (1, 6, 9), (1, 6, 11), (1, 7, 6), (1, 7, 9), (1, 7, 11), (1, 9, 6), (1, 9, 7),
  (1, 9, 11), (1, 11, 6), (1, 11, 7), (1, 11, 9), (2, 0, 1), (2, 0, 8), (2, 0, 9), (2, 1, 0), (2, 1, 8), (2, 1, 9),
  (2, 8, 0), (2, 8, 1), (2, 8, 9), (2, 9, 0), (2, 9, 1), (2, 9, 8), (3, 2, 3), (3, 2, 10), (3, 2, 11), (3, 3, 2),
  (3, 3, 10), (3, 3, 11), (3, 10, 2), (3, 10, 3), (3, 10, 11), (3, 11, 2), (3, 11, 3), (3, 11, 10), (4, 0, 2),
  (4, 0, 4), (4, 0, 6), (4, 2, 0), (4, 2, 4), (4, 2, 6), (4, 4, 0), (4, 4, 2), (4, 4, 6), (4, 6, 0), (4, 6, 2),
  (4, 6, 4), (5, 1, 3), (5, 1, 5), (5, 1, 7), (5, 3, 1), (5, 3, 5), (5, 3, 7), (5, 5, 1), (5, 5, 3), (5, 5, 7),
  (5, 7, 1), (5, 7, 3), (5, 7, 5)] := by decide +kernel

theorem mem_faceTriples {f i j : Nat} (hf : f < 6) (hi : i < 12) (hj : j < 12) (hij : i ≠ j) (fi : inFace f i = true)
    (fj : inFace f j = true) : (f, i, j) ∈ faceTriples := by
  unfold faceTriples
  refine List.mem_flatMap.2 ⟨f, List.mem_range.2 hf, List.mem_flatMap.2 ⟨i, List.mem_range.2 hi,
    List.mem_filterMap.2 ⟨j, List.mem_range.2 hj, ?_⟩⟩⟩
  simp [fi, fj, hij]

set_option maxHeartbeats 4000000 in
theorem rel_orient {f i j : Nat} (hf : f < 6) (hi : i < 12) (hj : j < 12) (hij : i ≠ j) (fi : inFace f i = true)
    (fj : inFace f j = true) {s t : K} (hs0 : 0 < s) (hs1 : s < 1) (ht0 : 0 < t) (ht1 : t < 1) :
    0 < (axisVec (faceAxis f) (decide (faceSide f = 1)) : Vec3 K).dot
      (((relEnd i (orientBit f i)).sub (relPoint i s)).cross ((relPoint j t).sub (relPoint i s))) := by
  have hs1' : 0 < 1 - s := by linarith
  have ht1' : 0 < 1 - t := by linarith
  have p1 := mul_pos hs0 ht0
  have p2 := mul_pos hs0 ht1'
  have p3 := mul_pos hs1' ht0
  have p4 := mul_pos hs1' ht1'
  have hmem := mem_faceTriples hf hi hj hij fi fj
  rw [faceTriples_eq] at hmem
  simp only [List.mem_cons, List.not_mem_nil, or_false, Prod.mk.injEq] at hmem
  clear hf hi hj hij fi fj
  rcases hmem with h | h | h | h | h | h | h | h | h | h | h | h | h | h | h | h | h | h | h | h | h | h | h | h |
      h | h | h | h | h | h | h | h | h | h | h | h | h | h | h | h | h | h | h | h | h | h | h | h |
      h | h | h | h | h | h | h | h | h | h | h | h | h | h | h | h | h | h | h | h | h | h | h | h <;>
    obtain ⟨rfl, rfl, rfl⟩ := h <;>
    simp [relEnd, relPoint, orientBit, faceAxis, faceSide, slotAxis, slotOff, edgeCorner, kCellEdgeEndpoint, cornerPos,
      Vec3.dot, Vec3.cross, Vec3.sub, Vec3.get, Vec3.set, IVec3.get, toVec, axisVec] <;> nlinarith

/-! ### Mesh level -/

theorem surfacePoint_rel {P : IVec3} {i : Nat} (hi : i < 12) {e : GridEdge K} (he : LEdge.ofGridEdge e = slotEdge P i) :
    e.surfacePoint = (toVec P : Vec3 K).add (relPoint i e.offset) := by
  have h1 : e.axis = slotAxis i := congrArg LEdge.axis he
  have h2 : e.lesser = (slotEdge P i).at_ := congrArg LEdge.at_ he
  unfold GridEdge.surfacePoint
  rw [h1, h2]
  generalize e.offset = t
  obtain ⟨x, y, z⟩ := P
  interval_cases i <;> simp [slotEdge, slotAxis, relPoint, slotOff, edgeCorner, kCellEdgeEndpoint, cornerPos, shift,
    Vec3.add, Vec3.set, Vec3.get, toVec] <;> ring

theorem solidEnd_rel {P : IVec3} {i : Nat} (hi : i < 12) {e : GridEdge K} (he : LEdge.ofGridEdge e = slotEdge P i) :
    (toVec (solidEnd e) : Vec3 K) = (toVec P : Vec3 K).add (relEnd i e.lesserSolid) := by
  have h1 : e.axis = slotAxis i := congrArg LEdge.axis he
  have h2 : e.lesser = (slotEdge P i).at_ := congrArg LEdge.at_ he
  unfold solidEnd
  rw [h1, h2]
  obtain ⟨x, y, z⟩ := P
  cases e.lesserSolid <;> interval_cases i <;> simp [slotEdge, slotAxis, relEnd, slotOff, edgeCorner,
    kCellEdgeEndpoint, cornerPos, shift, Vec3.add, toVec, edgeEnd]

theorem inFace_of_inPlane {P : IVec3} {i : Nat} {a : Axis} {f : Nat} (hfa : faceAxis f = a)
    (h : (slotEdge P i).InPlane a (P.get a + faceSide f)) : inFace f i = true := by
  unfold LEdge.InPlane at h
  have hax : (slotEdge P i).axis = slotAxis i := rfl
  rw [hax] at h
  unfold inFace
  simp only [Bool.and_eq_true, decide_eq_true_eq]
  rw [hfa]
  revert h
  unfold slotEdge
  dsimp only
  generalize slotOff i = o
  generalize faceSide f = s
  cases slotAxis i <;> cases a <;>
    simp only [edgeVertices, shift, List.mem_cons, List.not_mem_nil, or_false, forall_eq_or_imp, forall_eq,
      IVec3.get] <;> intro h <;> refine ⟨?_, by omega⟩ <;> intro hh <;> first | (exfalso; omega) | cases hh

theorem Vec3.sub_add_add (p a b : Vec3 K) : (p.add a).sub (p.add b) = a.sub b := by
  unfold Vec3.add Vec3.sub
  ext <;> simp

/-- C17.  If all offsets are strictly between 0 and 1: each triangle belongs to a cell such that, for each of its sides
running in a face of that cell (outward normal `n`), from the vertex on edge `eu` to the vertex on edge `ev`, the solid
end of `eu` is on the right when looking at the face from outside the cell:
`0 < n . ((solid end - start) x (end - start))`. -/
theorem C17_orientation {g : Grid K} (h : Filled g) (hoff : ∀ D, ∀ e ∈ g.edges D, 0 < e.offset ∧ e.offset < 1)
    (nrm : Vec3 K → Vec3 K) {r : PlacedMesh K} (hr : marchingCubes nrm g = some r) :
    ∀ t ∈ triangles r.mesh.indices, ∃ c, CellIn g.maxCoord c ∧
      (∀ v, (v = t.1 ∨ v = t.2.1 ∨ v = t.2.2) →
        ∃ e, (edgeList g)[v]? = some e ∧ ∀ q ∈ edgeVertices e.axis e.lesser, q ∈ cellVertices c) ∧
      ∀ u v, (u, v) ∈ sides [t] → ∀ eu ev, (edgeList g)[u]? = some eu → (edgeList g)[v]? = some ev →
        ∀ (a : Axis) (top : Bool), (LEdge.ofGridEdge eu).InPlane a (c.get a + if top then 1 else 0) →
          (LEdge.ofGridEdge ev).InPlane a (c.get a + if top then 1 else 0) →
          0 < (axisVec a top : Vec3 K).dot (((toVec (solidEnd eu) : Vec3 K).sub eu.surfacePoint).cross
            (ev.surfacePoint.sub eu.surfacePoint)) := by
  rw [mc_result h] at hr
  cases hr
  dsimp only
  rw [triangles_flatTri]
  intro t ht
  obtain ⟨P, hP, ht⟩ := List.mem_flatMap.1 ht
  obtain ⟨hc, -⟩ := (mem_mcCells h).1 hP
  obtain ⟨s, hs, rfl⟩ := mem_cellTriangles.1 ht
  obtain ⟨-, -, -, -, htab⟩ := C14_triangle_table.2 _ (cellMask_lt g P)
  obtain ⟨l1, l2, l3, -⟩ := htab s hs
  obtain ⟨a', b', c', ha, hb, hc', -⟩ := cellTriangles_ok h hc hs
  refine ⟨P, hc, ?_, ?_⟩
  · have key : ∀ i v, i < 12 → vid g P i = some v →
        ∃ e, (edgeList g)[v]? = some e ∧ ∀ q ∈ edgeVertices e.axis e.lesser, q ∈ cellVertices P := by
      intro i v hi hv
      obtain ⟨e, he, hl⟩ := (edgeIdx_eq_some h).1 hv
      refine ⟨e, he, ?_⟩
      have := slotEdge_in_cell (P := P) hi
      rw [← hl] at this
      exact this
    simp only [ha, hb, hc', Option.getD_some]
    rintro v (rfl | rfl | rfl)
    · exact key _ _ l1 ha
    · exact key _ _ l2 hb
    · exact key _ _ l3 hc'
  · intro u v huv eu ev heu hev a top pu pv
    have hmem : (u, v) ∈ sides (cellTriangles g P) := by
      unfold sides at huv ⊢
      simp only [List.flatMap_cons, List.flatMap_nil, List.append_nil] at huv
      exact List.mem_flatMap.2 ⟨_, mem_cellTriangles.2 ⟨s, hs, rfl⟩, huv⟩
    obtain ⟨i, hi, j, hj, hij, hu, hv⟩ := cellSide_slots h hc hmem
    obtain ⟨-, -, hne, -⟩ := sides_table (cellMask_lt g P) hij
    obtain ⟨eu', heu', lu⟩ := (edgeIdx_eq_some h).1 hu
    obtain ⟨ev', hev', lv⟩ := (edgeIdx_eq_some h).1 hv
    rw [heu] at heu'; rw [hev] at hev'
    cases heu'; cases hev'
    obtain ⟨f, hf, hfa, hfs⟩ : ∃ f < 6, faceAxis f = a ∧ faceSide f = if top then 1 else 0 := by
      cases a <;> cases top
      · exact ⟨0, by omega, rfl, rfl⟩
      · exact ⟨1, by omega, rfl, rfl⟩
      · exact ⟨2, by omega, rfl, rfl⟩
      · exact ⟨3, by omega, rfl, rfl⟩
      · exact ⟨4, by omega, rfl, rfl⟩
      · exact ⟨5, by omega, rfl, rfl⟩
    rw [← hfs] at pu pv
    rw [lu] at pu
    rw [lv] at pv
    have fi := inFace_of_inPlane hfa pu
    have fj := inFace_of_inPlane hfa pv
    have hmu := (mem_edgeList h).1 (List.mem_of_getElem? heu)
    have hmv := (mem_edgeList h).1 (List.mem_of_getElem? hev)
    have hsol : eu.lesserSolid = orientBit f i := by
      rw [h.edge_solid _ _ hmu, ← orient_table (cellMask_lt g P) hf hij fi fj,
        solid_cellMask g P (edgeCorner_lt i 0 hi (by omega))]
      have : eu.lesser = (slotEdge P i).at_ := congrArg LEdge.at_ lu
      rw [this]; rfl
    have := rel_orient hf hi hj hne fi fj (hoff _ _ hmu).1 (hoff _ _ hmu).2 (hoff _ _ hmv).1 (hoff _ _ hmv).2
    have htop : decide (faceSide f = 1) = top := by rw [hfs]; cases top <;> rfl
    rw [hfa, htop, ← hsol] at this
    rw [surfacePoint_rel hi lu, surfacePoint_rel hj lv, solidEnd_rel hi lu, Vec3.sub_add_add, Vec3.sub_add_add]
    exact this

/-- The one triangle of each pattern in which a single corner differs from the others. -/
def cornerTriangles : List (Nat × Bool × Nat × Nat × Nat) := [
  (0, true, (0, 4, 8)), (1, true, (8, 5, 1)), (2, true, (0, 9, 6)), (3, true, (9, 1, 7)), (4, true, (2, 10, 4)),
  (5, true, (10, 3, 5)), (6, true, (6, 11, 2)), (7, true, (7, 3, 11)), (0, false, (0, 8, 4)), (1, false, (8, 1,
  5)), (2, false, (0, 6, 9)), (3, false, (9, 7, 1)), (4, false, (2, 4, 10)), (5, false, (10, 5, 3)), (6, false,
  (6, 2, 11)), (7, false, (7, 11, 3))]

theorem cornerTriangles_complete : ∀ k < 8, ∀ b : Bool, ∃ t,
    mcTriangles (maskOf (fun c => if c = k then b else !b) 8) = [t] ∧ (k, b, t) ∈ cornerTriangles := by
  have h : ∀ k < 8, ∀ b : Bool, ∃ x ∈ cornerTriangles, x.1 = k ∧ x.2.1 = b ∧
    mcTriangles (maskOf (fun c => if c = k then b else !b) 8) = [x.2.2] := by decide +kernel
  intro k hk b
  obtain ⟨⟨k', b', t⟩, hx, rfl, rfl, h3⟩ := h k hk b
  exact ⟨t, h3, hx⟩

theorem corner_orient {k : Nat} {b : Bool} {t : Nat × Nat × Nat} (ht : (k, b, t) ∈ cornerTriangles) {s1 s2 s3 : K}
    (a1 : 0 < s1) (b1 : s1 < 1) (a2 : 0 < s2) (b2 : s2 < 1) (a3 : 0 < s3) (b3 : s3 < 1) :
    0 < (if b then (1 : K) else -1) * (areaVector (relPoint t.1 s1, relPoint t.2.1 s2, relPoint t.2.2 s3)).dot
      ((relPoint t.1 s1).sub (toVec (cornerPos k))) := by
  have c1 : 0 < 1 - s1 := by linarith
  have c2 : 0 < 1 - s2 := by linarith
  have c3 : 0 < 1 - s3 := by linarith
  have p1 := mul_pos (mul_pos a1 a2) a3
  have p2 := mul_pos (mul_pos a1 a2) c3
  have p3 := mul_pos (mul_pos a1 c2) a3
  have p4 := mul_pos (mul_pos a1 c2) c3
  have p5 := mul_pos (mul_pos c1 a2) a3
  have p6 := mul_pos (mul_pos c1 a2) c3
  have p7 := mul_pos (mul_pos c1 c2) a3
  have p8 := mul_pos (mul_pos c1 c2) c3
  unfold cornerTriangles at ht
  simp only [List.mem_cons, List.not_mem_nil, or_false, Prod.mk.injEq] at ht
  rcases ht with h | h | h | h | h | h | h | h | h | h | h | h | h | h | h | h <;>
    obtain ⟨rfl, rfl, rfl, rfl, rfl⟩ := h <;>
    simp [areaVector, relPoint, slotAxis, slotOff, edgeCorner, kCellEdgeEndpoint, cornerPos,
      Vec3.dot, Vec3.cross, Vec3.sub, Vec3.get, Vec3.set, toVec] <;> nlinarith

/-- C17, corners: for every cell in which exactly one corner is solid (`b = true`) or exactly one is empty (`b = false`)
there is a triangle whose area vector points away from that corner if it is solid, towards it if it is empty, whatever
the offsets in (0,1) are. -/
theorem C17_corner {g : Grid K} (h : Filled g) (hoff : ∀ D, ∀ e ∈ g.edges D, 0 < e.offset ∧ e.offset < 1)
    (nrm : Vec3 K → Vec3 K) {r : PlacedMesh K} (hr : marchingCubes nrm g = some r) {P : IVec3}
    (hP : CellIn g.maxCoord P) {k : Nat} (hk : k < 8) (b : Bool)
    (hone : ∀ c < 8, solidAt g (shift P (cornerPos c).x (cornerPos c).y (cornerPos c).z) = if c = k then b else !b) :
    ∃ t ∈ triangles r.mesh.indices, ∃ x y z, r.mesh.vertices[t.1]? = some x ∧ r.mesh.vertices[t.2.1]? = some y ∧
      r.mesh.vertices[t.2.2]? = some z ∧
      (∀ v, (v = t.1 ∨ v = t.2.1 ∨ v = t.2.2) →
        ∃ e, (edgeList g)[v]? = some e ∧ ∀ q ∈ edgeVertices e.axis e.lesser, q ∈ cellVertices P) ∧
      0 < (if b then (1 : K) else -1) * (areaVector (x.position, y.position, z.position)).dot
        (x.position.sub ((toVec P : Vec3 K).add (toVec (cornerPos k)))) := by
  rw [mc_result h] at hr
  cases hr
  dsimp only
  rw [triangles_flatTri]
  have hmask : cellMask g P = maskOf (fun c => if c = k then b else !b) 8 := by
    apply Nat.eq_of_testBit_eq
    intro c
    unfold cellMask
    rw [testBit_maskOf, testBit_maskOf]
    by_cases hc : c < 8
    · simp [hc, hone c hc]
    · simp [hc]
  obtain ⟨s, hs, hcs⟩ := cornerTriangles_complete k hk b
  rw [← hmask] at hs
  have hs' : s ∈ mcTriangles (cellMask g P) := by rw [hs]; exact List.mem_singleton.2 rfl
  obtain ⟨-, -, -, -, htab⟩ := C14_triangle_table.2 _ (cellMask_lt g P)
  obtain ⟨l1, l2, l3, -⟩ := htab s hs'
  obtain ⟨u, v, w, hu, hv, hw, -⟩ := cellTriangles_ok h hP hs'
  obtain ⟨eu, heu, lu⟩ := (edgeIdx_eq_some h).1 hu
  obtain ⟨ev, hev, lv⟩ := (edgeIdx_eq_some h).1 hv
  obtain ⟨ew, hew, lw⟩ := (edgeIdx_eq_some h).1 hw
  have hcell : P ∈ mcCells g := (mem_mcCells h).2 ⟨hP, _, l1, by rw [hu]; rfl⟩
  refine ⟨(u, v, w), List.mem_flatMap.2 ⟨P, hcell, mem_cellTriangles.2 ⟨s, hs', by simp [hu, hv, hw]⟩⟩,
    mcVertex nrm eu, mcVertex nrm ev, mcVertex nrm ew, ?_, ?_, ?_, ?_, ?_⟩
  · simp [heu]
  · simp [hev]
  · simp [hew]
  · have key : ∀ i v, i < 12 → vid g P i = some v →
        ∃ e, (edgeList g)[v]? = some e ∧ ∀ q ∈ edgeVertices e.axis e.lesser, q ∈ cellVertices P := by
      intro i v hi hv
      obtain ⟨e, he, hl⟩ := (edgeIdx_eq_some h).1 hv
      refine ⟨e, he, ?_⟩
      have := slotEdge_in_cell (P := P) hi
      rw [← hl] at this
      exact this
    rintro x (rfl | rfl | rfl)
    · exact key _ _ l1 hu
    · exact key _ _ l2 hv
    · exact key _ _ l3 hw
  · have ou := hoff _ _ ((mem_edgeList h).1 (List.mem_of_getElem? heu))
    have ov := hoff _ _ ((mem_edgeList h).1 (List.mem_of_getElem? hev))
    have ow := hoff _ _ ((mem_edgeList h).1 (List.mem_of_getElem? hew))
    have := corner_orient hcs ou.1 ou.2 ov.1 ov.2 ow.1 ow.2
    unfold mcVertex
    dsimp only
    rw [surfacePoint_rel l1 lu, surfacePoint_rel l2 lv, surfacePoint_rel l3 lw]
    unfold areaVector at this ⊢
    dsimp only at this ⊢
    rw [Vec3.sub_add_add, Vec3.sub_add_add, Vec3.sub_add_add]
    exact this

/-- Non-vacuity for C17: the demo grid filled with the demo field has a triangle, and all its offsets are 1/2. -/
example : ∃ g : Grid ℚ, Filled g ∧ (∀ D, ∀ e ∈ g.edges D, 0 < e.offset ∧ e.offset < 1) ∧
    ∃ r, marchingCubes id g = some r ∧ triangles r.mesh.indices ≠ [] := by
  obtain ⟨g', e, hf⟩ := demo_filled
  refine ⟨g', hf, ?_, ?_⟩
  · intro D x hx
    obtain ⟨p, -, -, rfl⟩ := ((C07_fill_edges demoGrid_reachable e D).1 x).1 hx
    cases D <;> norm_num [edgeRecord, crossingCoord, demoSolver, worldPos, demoGrid, edgeEnd, shift, Vec3.get] <;>
      constructor <;> linarith
  · obtain ⟨r, hr, -, -, -, h5, -, -, h8⟩ := C15_valid hf id
    refine ⟨r, hr, ?_⟩
    have hmem := ((C07_fill_edges demoGrid_reachable e .X).1 _).2 ⟨⟨0, 1, 0⟩, by decide,
      by norm_num [Crosses, demoField, worldPos, demoGrid, edgeEnd, shift], rfl⟩
    obtain ⟨v, hv⟩ := List.mem_iff_getElem?.1 ((mem_edgeList hf).2 hmem)
    obtain ⟨t, ht, -⟩ := h8 v (List.getElem?_eq_some_iff.1 (h5 v _ hv)).1
    exact List.ne_nil_of_mem ht

end Isomesh
