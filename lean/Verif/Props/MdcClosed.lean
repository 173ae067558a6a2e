import Verif.Props.MdcOctree
import Verif.Props.DcClosed

/-! C29: the surface of `MDC_Octree` is closed and consistently oriented for every error bound. -/

namespace Isomesh
open Spec Relation

set_option linter.unusedSectionVars false
variable {K : Type} [Add K] [_root_.Sub K] [Mul K] [Div K] [Neg K] [Zero K] [One K] [OfNat K 2] [OfScientific K] [NatCast K] [IntCast K]
  [Fabs K] [Elem K] [LinearOrder K] [RoundedLaws K]

variable {env : DcEnv K} {g : Grid K} {options : Qef K 3}

/-- The edges of a cell on one of its faces. -/
theorem face_high {P : IVec3} {A : Axis} {e : LEdge} : e ∈ faceEdges (step1 P A) A ↔ EdgeOfCell P e.axis e.at_ ∧ OnFace P A 1 e := by
  rw [← around_iff]
  obtain ⟨x, y, z⟩ := P
  obtain ⟨D, p, q, r⟩ := e
  unfold OnFace
  cases A <;> cases D <;> simp [faceEdges, step1, cellsAroundEdge, shift, IVec3.get] <;> omega

theorem face_low {P : IVec3} {A : Axis} {e : LEdge} :
    e ∈ faceEdges (step1 P A) A ↔ EdgeOfCell (step1 P A) e.axis e.at_ ∧ OnFace (step1 P A) A 0 e := by
  rw [← around_iff]
  obtain ⟨x, y, z⟩ := P
  obtain ⟨D, p, q, r⟩ := e
  unfold OnFace
  cases A <;> cases D <;> simp [faceEdges, step1, cellsAroundEdge, shift, IVec3.get] <;> omega

theorem edge_crossing {c : Cube} (hin : CubeIn g.maxCoord c) {P : IVec3} {e : LEdge} (hP : EdgeOfCell P e.axis e.at_) (hPc : c.Has P)
    (hne : drop (sigma g) e ≠ 0) : CrossingOf g P e := by
  refine ⟨⟨?_, ?_⟩, hP⟩
  · intro v hvv
    apply hin
    have h2 : Cube.Closed ⟨P, 0⟩ v := by
      have := hP v hvv
      simp only [cellVertices, shift, List.mem_cons, List.not_mem_nil, or_false] at this
      rw [cubeClosed_iff]
      intro a
      rcases this with rfl | rfl | rfl | rfl | rfl | rfl | rfl | rfl <;> cases a <;> simp [IVec3.get, Cube.side]
    apply closed_sub _ h2
    rw [cubeHas_iff] at hPc
    rw [cubeSub_iff]
    intro a
    have := hPc a
    simp only [Cube.side, pow_zero] at *
    omega
  · intro hss
    apply hne
    unfold drop sigma
    rw [hss]; ring

theorem crossing_drop {e : LEdge} (h : CrossingEdge g e.axis e.at_) : drop (sigma g) e ≠ 0 := by
  have := h.2
  unfold drop sigma
  cases h1 : solidAt g e.at_ <;> cases h2 : solidAt g (edgeEnd e.axis e.at_) <;> rw [h1, h2] at this <;> simp at this ⊢

/-- One face: the contributions of its edges cancel. -/
theorem face_cancel {c : Cube} (hin : CubeIn g.maxCoord c) {f : IVec3 × Axis} (f1 : c.Has f.1) (f2 : c.Has (step1 f.1 f.2))
    (V : CellCrossing → Nat)
    (hV : ∀ x y : CellCrossing, x.In g c → y.In g c → x.cell = y.cell → SameSheet g x.cell x.edge y.edge → V x = V y) (a b : Nat) :
    ((faceEdges (step1 f.1 f.2) f.2).map fun e => drop (sigma g) e * cellNet e.axis e.at_ f.1 (step1 f.1 f.2) *
      sideNet (V ⟨f.1, e.axis, e.at_⟩) (V ⟨step1 f.1 f.2, e.axis, e.at_⟩) a b).sum = 0 := by
  obtain ⟨P, A⟩ := f
  dsimp only at f1 f2 ⊢
  set s : LEdge → Int := fun e => sideNet (V ⟨P, e.axis, e.at_⟩) (V ⟨step1 P A, e.axis, e.at_⟩) a b with hs
  -- edges joined in the face use the same pair of vertices
  have key : ∀ e ∈ faceEdges (step1 P A) A, ∀ e' ∈ faceEdges (step1 P A) A, drop (sigma g) e ≠ 0 → drop (sigma g) e' ≠ 0 →
      (solidEndOf g e = solidEndOf g e' ∨ ∀ k ∈ faceEdges (step1 P A) A, drop (sigma g) k ≠ 0 → k = e ∨ k = e') → s e = s e' := by
    intro e he e' he' hd hd' hor
    have h1 := edge_crossing hin (face_high.1 he).1 f1 hd
    have h1' := edge_crossing hin (face_high.1 he').1 f1 hd'
    have h2 := edge_crossing hin (face_low.1 he).1 f2 hd
    have h2' := edge_crossing hin (face_low.1 he').1 f2 hd'
    have e1 : V ⟨P, e.axis, e.at_⟩ = V ⟨P, e'.axis, e'.at_⟩ := by
      refine hV _ _ ⟨f1, h1⟩ ⟨f1, h1'⟩ rfl (Or.inr (EqvGen.rel _ _ ⟨h1, h1', ?_⟩))
      rcases hor with h | h
      · exact Or.inl h
      · exact Or.inr ⟨A, 1, Or.inr rfl, (face_high.1 he).2, (face_high.1 he').2, fun k hk hkf =>
          h k (face_high.2 ⟨hk.2, hkf⟩) (crossing_drop hk.1)⟩
    have e2 : V ⟨step1 P A, e.axis, e.at_⟩ = V ⟨step1 P A, e'.axis, e'.at_⟩ := by
      refine hV _ _ ⟨f2, h2⟩ ⟨f2, h2'⟩ rfl (Or.inr (EqvGen.rel _ _ ⟨h2, h2', ?_⟩))
      rcases hor with h | h
      · exact Or.inl h
      · exact Or.inr ⟨A, 0, Or.inl rfl, (face_low.1 he).2, (face_low.1 he').2, fun k hk hkf =>
          h k (face_low.2 ⟨hk.2, hkf⟩) (crossing_drop hk.1)⟩
    rw [hs]
    simp only
    rw [e1, e2]
  change ((faceEdges (step1 P A) A).map fun e => drop (sigma g) e * cellNet e.axis e.at_ P (step1 P A) * s e).sum = 0
  -- coefficients
  have hco : (faceEdges (step1 P A) A).map (fun e => cellNet e.axis e.at_ P (step1 P A)) = [1, -1, -1, 1] ∨
      (faceEdges (step1 P A) A).map (fun e => cellNet e.axis e.at_ P (step1 P A)) = [-1, 1, 1, -1] := by
    obtain ⟨x, y, z⟩ := P
    cases A <;> simp [faceEdges, step1, cellNet, cellsAroundEdge, cycleNet, ind, shift]
  -- the four edges and corners
  obtain ⟨D, E, p1, p2, p3, hF, n1, n2, n3, n4⟩ : ∃ (D E : Axis) (p1 p2 p3 : IVec3),
      faceEdges (step1 P A) A = [⟨D, step1 P A⟩, ⟨D, p2⟩, ⟨E, step1 P A⟩, ⟨E, p1⟩] ∧ edgeEnd D (step1 P A) = p1 ∧ edgeEnd D p2 = p3 ∧
      edgeEnd E (step1 P A) = p2 ∧ edgeEnd E p1 = p3 := by
    obtain ⟨x, y, z⟩ := P
    cases A
    · exact ⟨.Y, .Z, shift (step1 ⟨x, y, z⟩ .X) 0 1 0, shift (step1 ⟨x, y, z⟩ .X) 0 0 1, shift (step1 ⟨x, y, z⟩ .X) 0 1 1, rfl,
        by simp [edgeEnd, shift], by simp [edgeEnd, shift], by simp [edgeEnd, shift], by simp [edgeEnd, shift]⟩
    · exact ⟨.X, .Z, shift (step1 ⟨x, y, z⟩ .Y) 1 0 0, shift (step1 ⟨x, y, z⟩ .Y) 0 0 1, shift (step1 ⟨x, y, z⟩ .Y) 1 0 1, rfl,
        by simp [edgeEnd, shift], by simp [edgeEnd, shift], by simp [edgeEnd, shift], by simp [edgeEnd, shift]⟩
    · exact ⟨.X, .Y, shift (step1 ⟨x, y, z⟩ .Z) 1 0 0, shift (step1 ⟨x, y, z⟩ .Z) 0 1 0, shift (step1 ⟨x, y, z⟩ .Z) 1 1 0, rfl,
        by simp [edgeEnd, shift], by simp [edgeEnd, shift], by simp [edgeEnd, shift], by simp [edgeEnd, shift]⟩
  generalize step1 P A = Q at *
  rw [hF] at key hco ⊢
  simp only [List.mem_cons, List.not_mem_nil, or_false, forall_eq_or_imp, forall_eq] at key
  simp only [List.map_cons, List.map_nil, List.sum_cons, List.sum_nil, List.cons.injEq, and_true] at hco ⊢
  have hdr : drop (sigma g) ⟨D, Q⟩ = sigma g Q - sigma g p1 ∧ drop (sigma g) ⟨D, p2⟩ = sigma g p2 - sigma g p3 ∧
      drop (sigma g) ⟨E, Q⟩ = sigma g Q - sigma g p2 ∧ drop (sigma g) ⟨E, p1⟩ = sigma g p1 - sigma g p3 := by
    unfold drop; simp only [n1, n2, n3, n4, and_self]
  have hse : solidEndOf g ⟨D, Q⟩ = (if solidAt g Q then Q else p1) ∧ solidEndOf g ⟨D, p2⟩ = (if solidAt g p2 then p2 else p3) ∧
      solidEndOf g ⟨E, Q⟩ = (if solidAt g Q then Q else p2) ∧ solidEndOf g ⟨E, p1⟩ = (if solidAt g p1 then p1 else p3) := by
    unfold solidEndOf; simp only [n1, n2, n3, n4, and_self]
  rw [hdr.1, hdr.2.1, hdr.2.2.1, hdr.2.2.2, hse.1, hse.2.1, hse.2.2.1, hse.2.2.2] at key
  rw [hdr.1, hdr.2.1, hdr.2.2.1, hdr.2.2.2]
  generalize s ⟨D, Q⟩ = s1 at *
  generalize s ⟨D, p2⟩ = s2 at *
  generalize s ⟨E, Q⟩ = s3 at *
  generalize s ⟨E, p1⟩ = s4 at *
  clear hs s
  generalize cellNet D Q P Q = k1 at *
  generalize cellNet D p2 P Q = k2 at *
  generalize cellNet E Q P Q = k3 at *
  generalize cellNet E p1 P Q = k4 at *
  unfold sigma at *
  rcases hco with ⟨rfl, rfl, rfl, rfl⟩ | ⟨rfl, rfl, rfl, rfl⟩ <;>
  cases h0 : solidAt g Q <;> cases h1 : solidAt g p1 <;> cases h2 : solidAt g p2 <;> cases h3 : solidAt g p3 <;>
    simp only [h0, h1, h2, h3, if_true, if_false, Bool.false_eq_true, sub_self, ne_eq, not_true_eq_false, false_imp_iff,
      implies_true, true_and, and_true, sub_zero, zero_sub, true_or, or_true, forall_const, not_false_eq_true,
      one_ne_zero, neg_eq_zero, true_imp_iff] at key ⊢ <;> first | omega | (simp at key ⊢; omega)

/-- C29.  For any error bound, each directed side from the vertex `a` to the vertex `b` occurs as often as its reverse,
unless there is a crossing edge on the boundary of the octree's cube seen from one cell with the vertex `a` and from
another with the vertex `b`. -/
theorem C29_closed {root : Cube} {V : CellCrossing → Nat} {m : Mesh K} (hin : CubeIn g.maxCoord root) (h : MdcMesh g root V m) {a b : Nat}
    (hborder : ¬ ∃ (e : LEdge) (P Q : IVec3), CrossingOf g P e ∧ CrossingOf g Q e ∧ root.Has P ∧ root.Has Q ∧
      OnBorder root e.axis e.at_ ∧ V ⟨P, e.axis, e.at_⟩ = a ∧ V ⟨Q, e.axis, e.at_⟩ = b) :
    (sides (triangles m.indices)).count (a, b) = (sides (triangles m.indices)).count (b, a) := by
  classical
  have hnet : netSides (triangles m.indices) a b = 0 := by
    obtain ⟨es, hn, hes, htri⟩ := h.quads
    rw [htri, netSides_flatMap]
    have hone : (es.map fun e => netSides (octQuad (V (e.seen 0)) (V (e.seen 1)) (V (e.seen 2)) (V (e.seen 3)) (solidAt g e.at_)) a b) =
        es.map fun e => drop (sigma g) e * cycleNet (V (e.seen 0)) (V (e.seen 1)) (V (e.seen 2)) (V (e.seen 3)) a b := by
      apply List.map_congr_left
      intro e he
      rw [octQuad_net]
      congr 1
      have := ((hes e).1 he).1.2
      unfold drop sigma
      cases h1 : solidAt g e.at_ <;> cases h2 : solidAt g (edgeEnd e.axis e.at_) <;> rw [h1, h2] at this <;> simp at this ⊢
    rw [hone, ← List.sum_toFinset _ hn]
    have hsub : es.toFinset ⊆ cubeEdges root := by
      intro e he
      rw [mem_cubeEdges]
      intro P hP
      by_contra hc
      exact ((hes e).1 (List.mem_toFinset.1 he)).2 ⟨P, hP, hc⟩
    rw [Finset.sum_subset hsub]
    · apply push_closed root (drop (sigma g)) (fun P e => V ⟨P, e.axis, e.at_⟩) a b
      intro f hf
      obtain ⟨f1, f2⟩ := mem_cubeFaces.1 hf
      rw [face_sum]
      · exact face_cancel hin f1 f2 V h.sheet a b
      · intro e he hn
        by_cases hd : drop (sigma g) e = 0
        · rw [hd]; ring
        obtain ⟨k1, k2⟩ := faceEdges_of_cells he
        have c1 := edge_crossing hin k1 f1 hd
        have c2 := edge_crossing hin k2 f2 hd
        have hob : OnBorder root e.axis e.at_ := by
          by_contra hc
          apply hn
          rw [mem_cubeEdges]
          intro R hR
          by_contra hR'
          exact hc ⟨R, hR, hR'⟩
        have hz : sideNet (V ⟨f.1, e.axis, e.at_⟩) (V ⟨step1 f.1 f.2, e.axis, e.at_⟩) a b = 0 := by
          unfold sideNet ind
          rw [if_neg, if_neg, sub_zero]
          · rintro ⟨h1, h2⟩
            exact hborder ⟨e, _, _, c2, c1, f2, f1, hob, h2, h1⟩
          · rintro ⟨h1, h2⟩
            exact hborder ⟨e, _, _, c1, c2, f1, f2, hob, h1, h2⟩
        rw [hz, mul_zero]
    · intro e he hne
      have : drop (sigma g) e = 0 := by
        by_contra hd
        apply hne
        rw [List.mem_toFinset, hes]
        have hall := mem_cubeEdges.1 he
        have hP : EdgeOfCell (Spec.edgeCorner e.axis e.at_ 1 0) e.axis e.at_ := edgeCorner_of _ _ _
        refine ⟨(edge_crossing hin hP (hall _ (around_iff.2 hP)) hd).1, ?_⟩
        rintro ⟨R, hR, hR'⟩
        exact hR' (hall R hR)
      rw [this, zero_mul]
  unfold netSides at hnet
  omega

/-- C29, closed surfaces: if no crossing edge of a cell of the cube lies on the boundary of the cube, every directed side
occurs as often as its reverse, for any error bound. -/
theorem C29_closed_surface {root : Cube} {V : CellCrossing → Nat} {m : Mesh K} (hin : CubeIn g.maxCoord root) (h : MdcMesh g root V m)
    (hborder : ∀ x : CellCrossing, x.In g root → ¬ OnBorder root x.axis x.at_) (a b : Nat) :
    (sides (triangles m.indices)).count (a, b) = (sides (triangles m.indices)).count (b, a) := by
  apply C29_closed hin h
  rintro ⟨e, P, Q, h1, -, h3, -, h5, -⟩
  exact hborder ⟨P, e.axis, e.at_⟩ ⟨h3, h1⟩ h5

/-- C29 for the API: the meshes returned by any sequence of `contour` calls on a built octree are closed and consistently
oriented, if the surface does not reach the boundary of the octree's cube. -/
theorem C29_contour (hg : Filled g) {o o' o1 o2 : MdcOctree K} {solver q' : Qef K 3} (hin : CubeIn g.maxCoord (rootCube o.level))
    (hsz : 4 * crossingCells g (rootCube o.level) + 3 < 2 ^ 32) (hs : 0 < o.globalScale * o.globalScale) (hb : o.build env g solver = some (q', o'))
    (hborder : ∀ x : CellCrossing, x.In g (rootCube o.level) → ¬ OnBorder (rootCube o.level) x.axis x.at_)
    {bounds : List K} (h1 : contourAll o' bounds = some o1) {ε : K} {r : PlacedMesh K} (h2 : o1.contour ε = some (r, o2)) (a b : Nat) :
    (∀ i ∈ r.mesh.indices, i < r.mesh.vertices.length) ∧
    (sides (triangles r.mesh.indices)).count (a, b) = (sides (triangles r.mesh.indices)).count (b, a) := by
  obtain ⟨M, V, hS, hall⟩ := C28_contour hg hin hsz hs hb
  obtain ⟨o1', e1, e2⟩ := hall bounds
  rw [h1] at e1
  cases e1
  obtain ⟨o2', e3⟩ := e2 ε
  rw [h2] at e3
  cases e3
  exact ⟨(C28_indices (hS.mesh ε)).1, C29_closed_surface hin (hS.mesh ε) hborder a b⟩

end Isomesh
