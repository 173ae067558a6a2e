import Verif.Proofs.FloatLaws
import Verif.Props.RoundingDemo
import Verif.Props.DcManifold
import Verif.Props.McManifold
import Verif.Props.DcCollapse
import Verif.Props.DcClosed
import Verif.Props.MdcManifold
import Verif.Props.DmcClosed
import Verif.Props.DmcBuild

/-! C75: meshing with rounded arithmetic.  The grid is filled in one format (`double`), its records are converted and the mesh is made
in another one (`float`). -/

namespace Isomesh
open Spec

set_option linter.unusedSectionVars false

section Convert
variable {K : Type} [Add K] [_root_.Sub K] [Mul K] [Div K] [Zero K] [IntCast K] [LinearOrder K]
variable {K' : Type} [Add K'] [_root_.Sub K'] [Mul K'] [Div K'] [Zero K'] [IntCast K'] [LinearOrder K']

theorem same_at {g : Grid K} {g' : Grid K'} (h : SameStructure g g') (p : IVec3) : g'.at p = g.at p := by
  unfold Grid.at Grid.pointToIndex Grid.readMat Grid.isVertexInGrid
  rw [h.size, h.half, h.mat]

theorem forall2_left {α β : Type} {R : α → β → Prop} {l : List α} {l' : List β} (h : List.Forall₂ R l l') :
    ∀ x ∈ l, ∃ y ∈ l', R x y := by
  induction h with
  | nil => simp
  | cons h _ ih =>
    intro x hx
    rcases List.mem_cons.1 hx with rfl | hx
    · exact ⟨_, List.mem_cons_self, h⟩
    · obtain ⟨y, hy, hr⟩ := ih x hx
      exact ⟨y, List.mem_cons_of_mem _ hy, hr⟩

theorem forall2_right {α β : Type} {R : α → β → Prop} {l : List α} {l' : List β} (h : List.Forall₂ R l l') :
    ∀ y ∈ l', ∃ x ∈ l, R x y := by
  induction h with
  | nil => simp
  | cons h _ ih =>
    intro x hx
    rcases List.mem_cons.1 hx with rfl | hx
    · exact ⟨_, List.mem_cons_self, h⟩
    · obtain ⟨y, hy, hr⟩ := ih x hx
      exact ⟨y, List.mem_cons_of_mem _ hy, hr⟩

theorem forall2_sorted {l : List (GridEdge K)} {l' : List (GridEdge K')}
    (h : List.Forall₂ (fun (e : GridEdge K) (e' : GridEdge K') => e'.lesser = e.lesser ∧ e'.axis = e.axis ∧
      e'.lesserSolid = e.lesserSolid ∧ e'.material = e.material) l l')
    (hs : l.Pairwise (fun a b => LexYXZ a.lesser b.lesser)) : l'.Pairwise (fun a b => LexYXZ a.lesser b.lesser) := by
  induction h with
  | nil => exact .nil
  | cons h t ih =>
    rw [List.pairwise_cons] at hs ⊢
    refine ⟨fun y hy => ?_, ih hs.2⟩
    obtain ⟨x, hx, hr⟩ := forall2_right t y hy
    rw [h.1, hr.1]
    exact hs.1 x hx

/-- C75: whatever happens to offsets and gradients when records are converted to another number type, the grid stays consistent. -/
theorem C75_converted {g : Grid K} {g' : Grid K'} (hg : Filled g) (h : SameStructure g g') : Filled g' := by
  have hm : g'.maxCoord = g.maxCoord := h.half
  have hs : ∀ p, solidAt g' p = solidAt g p := fun p => by unfold solidAt; rw [same_at h]
  refine ⟨⟨?_, ?_, ?_, ?_⟩, ?_, ?_, ?_, ?_, ?_, ?_⟩
  · rw [h.size]; exact hg.wf.two_le
  · rw [h.size]; exact hg.wf.le
  · rw [h.size, h.half]; exact hg.wf.half_eq
  · rw [h.size, h.mat]; exact hg.wf.mat_len
  · intro p hp; rw [same_at h]; exact hg.written p (by rwa [hm] at hp)
  · intro D p
    have : CrossingEdge g' D p ↔ CrossingEdge g D p := by unfold CrossingEdge; rw [hm, hs, hs]
    rw [this, ← hg.edge_iff D p]
    constructor
    · rintro ⟨e, he, rfl⟩
      obtain ⟨x, hx, hr⟩ := forall2_right (h.edges D) e he
      exact ⟨x, hx, hr.1.symm⟩
    · rintro ⟨e, he, rfl⟩
      obtain ⟨x, hx, hr⟩ := forall2_left (h.edges D) e he
      exact ⟨x, hx, hr.1⟩
  · intro D e he
    obtain ⟨x, hx, hr⟩ := forall2_right (h.edges D) e he
    rw [hr.2.1]; exact hg.edge_axis D x hx
  · intro D e he
    obtain ⟨x, hx, hr⟩ := forall2_right (h.edges D) e he
    rw [hr.2.2.1, hs, hr.1]; exact hg.edge_solid D x hx
  · intro D e he
    obtain ⟨x, hx, hr⟩ := forall2_right (h.edges D) e he
    rw [same_at h, hr.2.2.1, hr.2.2.2, hr.1]; exact hg.edge_mat D x hx
  · intro D; exact forall2_sorted (h.edges D) (hg.sorted D)

end Convert

theorem forall2_map {α β : Type} (R : α → β → Prop) (f : α → β) (h : ∀ x, R x (f x)) : ∀ l : List α, List.Forall₂ R l (l.map f)
  | [] => .nil
  | x :: l => .cons (h x) (forall2_map R f h l)

/-- The conversion of a grid changes nothing else. -/
theorem narrow_same {F : FloatFormat} (G : FloatFormat) (g : Grid (Fl F)) : SameStructure g (g.narrow G) := by
  refine ⟨rfl, rfl, rfl, ?_⟩
  intro D
  cases D <;> exact forall2_map _ _ (fun e => ⟨rfl, rfl, rfl, rfl⟩) _

variable {F G : FloatFormat}

/-- What the meshing algorithms get: the grid filled in `F`, converted to `G`. -/
theorem C75_filled_rounded {g g' : Grid (Fl F)} (hg : g.Reachable) {f : ScalarField (Fl F)} {sv : ZeroFinder (Fl F)} (hf : ProperField f)
    (h : g.fill f sv = some g') : Filled g' ∧ Filled (g'.narrow G) :=
  ⟨C07_filled hg hf h, C75_converted (C07_filled hg hf h) (narrow_same G g')⟩

section Mesh
variable {K : Type} [Add K] [_root_.Sub K] [Mul K] [Div K] [Zero K] [IntCast K] [LinearOrder K]
variable {K' : Type} [Add K'] [_root_.Sub K'] [Mul K'] [Div K'] [Neg K'] [Zero K'] [One K'] [OfNat K' 2] [OfScientific K'] [NatCast K']
  [IntCast K'] [Fabs K'] [Elem K'] [LinearOrder K'] [RoundedLaws K']
variable {g g' : Grid K} {n : Grid K'} {f : ScalarField K} {sv : ZeroFinder K}

theorem clear_solid (hg : g.Reachable) (h : g.fill f sv = some g') (hn : SameStructure g' n) {lo hi : Int}
    (hbox : -g.maxCoord ≤ lo ∧ hi ≤ g.maxCoord) (hc : ClearOfBox f (samplePos g.globalPos g.step g.maxCoord) lo hi) {p : IVec3}
    (hp : ∀ a, lo ≤ p.get a ∧ p.get a ≤ hi) (hb : ∃ a, p.get a = lo ∨ p.get a = hi) : solidAt n p = false := by
  obtain ⟨g'', e, -, hm⟩ := C73_fill_materials hg f sv
  rw [h] at e; cases e
  have hin : InCube g.maxCoord p := by
    have h1 := hp .X; have h2 := hp .Y; have h3 := hp .Z
    simp only [IVec3.get] at h1 h2 h3
    unfold InCube
    omega
  unfold solidAt
  rw [same_at hn, hm p hin]
  simp only [vertexMaterial_le]
  simp [not_le.2 (hc p hp hb)]

/-- Crossing edges of a box whose surface is empty do not lie on the surface. -/
theorem clear_inside {lo hi : Int} (hc : ∀ p : IVec3, (∀ a, lo ≤ p.get a ∧ p.get a ≤ hi) → (∃ a, p.get a = lo ∨ p.get a = hi) →
    solidAt n p = false) {D : Axis} {p : IVec3} (hv : ∀ v ∈ edgeVertices D p, ∀ a, lo ≤ v.get a ∧ v.get a ≤ hi)
    (hx : solidAt n p ≠ solidAt n (edgeEnd D p)) : ∀ c ∈ cellsAroundEdge D p, ∀ a, lo ≤ c.get a ∧ c.get a < hi := by
  have key : ∃ v ∈ edgeVertices D p, ∀ a, v.get a ≠ lo ∧ v.get a ≠ hi := by
    by_contra hcon
    push Not at hcon
    have h1 : ∀ v ∈ edgeVertices D p, solidAt n v = false := by
      intro v hv'
      obtain ⟨a, ha⟩ := hcon v hv'
      refine hc v (hv v hv') ⟨a, ?_⟩
      by_cases h' : v.get a = lo
      · exact Or.inl h'
      · exact Or.inr (ha h')
    apply hx
    rw [h1 p (by cases D <;> simp [edgeVertices]), h1 (edgeEnd D p) (by cases D <;> simp [edgeVertices, edgeEnd])]
  obtain ⟨v, hv1, hv2⟩ := key
  have a1 := hv2 .X; have a2 := hv2 .Y; have a3 := hv2 .Z
  have e1 := hv p (by cases D <;> simp [edgeVertices])
  have e2 := hv (edgeEnd D p) (by cases D <;> simp [edgeVertices, edgeEnd])
  have b1 := e1 .X; have b2 := e1 .Y; have b3 := e1 .Z
  have c1 := e2 .X; have c2 := e2 .Y; have c3 := e2 .Z
  intro c hc' a
  cases D <;> simp only [edgeVertices, cellsAroundEdge, edgeEnd, shift, List.mem_cons, List.not_mem_nil, or_false, IVec3.get] at * <;>
    rcases hv1 with rfl | rfl <;> rcases hc' with rfl | rfl | rfl | rfl <;> cases a <;> simp only [] at * <;> omega

theorem inCube_get {h : Int} {p : IVec3} : InCube h p ↔ ∀ a, -h ≤ p.get a ∧ p.get a ≤ h := by
  unfold InCube
  constructor
  · rintro ⟨h1, h2, h3⟩ a
    cases a
    · exact h1
    · exact h2
    · exact h3
  · intro h; exact ⟨h .X, h .Y, h .Z⟩

theorem clear_interior (hg : g.Reachable) (h : g.fill f sv = some g') (hn : SameStructure g' n)
    (hc : ClearOfBox f (samplePos g.globalPos g.step g.maxCoord) (-g.maxCoord) g.maxCoord) {D : Axis} {p : IVec3}
    (hx : CrossingEdge n D p) : InteriorEdge n.maxCoord D p := by
  obtain ⟨g'', e, ⟨-, hh, -⟩, -⟩ := C73_fill_materials hg f sv
  rw [h] at e; cases e
  have hm : n.maxCoord = g.maxCoord := hn.half.trans hh
  unfold CrossingEdge at hx
  rw [hm] at hx ⊢
  have := clear_inside (fun p hp hb => clear_solid hg h hn ⟨le_rfl, le_rfl⟩ hc hp hb)
    (fun v hv => inCube_get.1 (hx.1 v hv)) hx.2
  intro c hc'
  have t1 := this c hc' .X; have t2 := this c hc' .Y; have t3 := this c hc' .Z
  simp only [IVec3.get] at t1 t2 t3
  intro v hv
  unfold InCube
  simp only [cellVertices, shift, List.mem_cons, List.not_mem_nil, or_false] at hv
  rcases hv with rfl | rfl | rfl | rfl | rfl | rfl | rfl | rfl <;> refine ⟨⟨?_, ?_⟩, ⟨?_, ?_⟩, ?_, ?_⟩ <;> try dsimp only
  all_goals omega

theorem edgeVertex_closed {c : Cube} {P : IVec3} {D : Axis} {p : IVec3} (hP : c.Has P) (he : EdgeOfCell P D p) :
    ∀ v ∈ edgeVertices D p, c.Closed v := by
  intro v hv
  have := he v hv
  unfold Cube.Has at hP
  unfold Cube.Closed
  simp only [cellVertices, shift, List.mem_cons, List.not_mem_nil, or_false] at this
  rcases this with rfl | rfl | rfl | rfl | rfl | rfl | rfl | rfl <;> refine ⟨⟨?_, ?_⟩, ⟨?_, ?_⟩, ?_, ?_⟩ <;> try dsimp only
  all_goals omega

theorem root_lo (level : Nat) : (rootCube level).lo.y = (rootCube level).lo.x ∧ (rootCube level).lo.z = (rootCube level).lo.x := by
  unfold rootCube; split <;> exact ⟨rfl, rfl⟩

theorem clear_border (hg : g.Reachable) (h : g.fill f sv = some g') (hn : SameStructure g' n) {level : Nat}
    (hin : CubeIn g.maxCoord (rootCube level))
    (hc : ClearOfBox f (samplePos g.globalPos g.step g.maxCoord) (rootCube level).lo.x ((rootCube level).lo.x + (rootCube level).side))
    {D : Axis} {p P : IVec3} (hx : CrossingEdge n D p) (hP : (rootCube level).Has P) (he : EdgeOfCell P D p) :
    ¬ OnBorder (rootCube level) D p := by
  have hside : 0 ≤ (rootCube level).side := by unfold Cube.side; positivity
  have hl := root_lo level
  have hbox : -g.maxCoord ≤ (rootCube level).lo.x ∧ (rootCube level).lo.x + (rootCube level).side ≤ g.maxCoord := by
    have h1 := hin ⟨(rootCube level).lo.x, (rootCube level).lo.x, (rootCube level).lo.x⟩ (by unfold Cube.Closed; simp only []; omega)
    have h2 := hin ⟨(rootCube level).lo.x + (rootCube level).side, (rootCube level).lo.x, (rootCube level).lo.x⟩
      (by unfold Cube.Closed; simp only []; omega)
    unfold InCube at h1 h2
    simp only [] at h1 h2
    omega
  have := clear_inside (fun p hp hb => clear_solid hg h hn hbox hc hp hb)
    (fun v hv a => by
      have := edgeVertex_closed hP he v hv
      unfold Cube.Closed at this
      cases a <;> simp only [IVec3.get] <;> omega) hx.2
  rintro ⟨R, hR, hnot⟩
  apply hnot
  have t1 := this R hR .X; have t2 := this R hR .Y; have t3 := this R hR .Z
  simp only [IVec3.get] at t1 t2 t3
  unfold Cube.Has
  omega

/-- C75: marching cubes for any arithmetic: `fill` in `K`, convert the records in any way, make the mesh in `K'`.  There is one vertex
per record, indices are valid, the triangles around each vertex form one fan; if the solid does not reach the border of the grid,
the surface is watertight. -/
theorem C75_marching_cubes (hg : g.Reachable) (hf : ProperField f) (h : g.fill f sv = some g') (hn : SameStructure g' n)
    (nrm : Vec3 K' → Vec3 K') :
    ∃ r, marchingCubes nrm n = some r ∧
      r.mesh.vertices.length = (g'.edges .X).length + (g'.edges .Y).length + (g'.edges .Z).length ∧
      (∀ t ∈ triangles r.mesh.indices, t.1 < r.mesh.vertices.length ∧ t.2.1 < r.mesh.vertices.length ∧ t.2.2 < r.mesh.vertices.length) ∧
      OneFan (triangles r.mesh.indices) ∧
      (ClearOfBox f (samplePos g.globalPos g.step g.maxCoord) (-g.maxCoord) g.maxCoord → Watertight (triangles r.mesh.indices)) := by
  have hF := C75_converted (C07_filled hg hf h) hn
  obtain ⟨r, hr, -, -, h1, -, -, h2, -⟩ := C15_valid hF nrm
  refine ⟨r, hr, ?_, fun t ht => ⟨(h2 t ht).1, (h2 t ht).2.1, (h2 t ht).2.2.1⟩, C72_marching_cubes hF nrm hr, ?_⟩
  · rw [h1, (hn.edges .X).length_eq, (hn.edges .Y).length_eq, (hn.edges .Z).length_eq]
  · intro hc a b
    obtain ⟨-, h3 | ⟨ea, eb, ha, hb, x, v, hv, pa, pb⟩⟩ := C16_closed hF nrm hr a b
    · exact h3
    · exfalso
      have hmem := List.mem_of_getElem? ha
      have hx : ∃ D, ea ∈ n.edges D := by
        unfold edgeList at hmem
        simp only [List.mem_append] at hmem
        rcases hmem with (h' | h') | h'
        exacts [⟨_, h'⟩, ⟨_, h'⟩, ⟨_, h'⟩]
      obtain ⟨D, hD⟩ := hx
      have hax := hF.edge_axis D ea hD
      have hcr := (hF.edge_iff D ea.lesser).1 ⟨ea, hD, rfl⟩
      have hi := clear_interior hg h hn hc hcr
      unfold LEdge.InPlane LEdge.ofGridEdge at pa
      simp only [hax] at pa
      have q1 := pa ea.lesser (by cases D <;> simp [edgeVertices])
      have q2 := pa (edgeEnd D ea.lesser) (by cases D <;> simp [edgeVertices, edgeEnd])
      have hall : ∀ c ∈ cellsAroundEdge D ea.lesser, ∀ w ∈ cellVertices c, ∀ a, -n.maxCoord ≤ w.get a ∧ w.get a ≤ n.maxCoord :=
        fun c hc w hw => inCube_get.1 (hi c hc w hw)
      generalize n.maxCoord = m at *
      generalize ea.lesser = p at *
      have r1 := hall (shift p (if D = .X then 0 else -1) (if D = .Y then 0 else -1) (if D = .Z then 0 else -1))
        (by cases D <;> simp [cellsAroundEdge]) _ (List.mem_cons_self)
      have r2 := hall (shift p 0 0 0) (by cases D <;> simp [cellsAroundEdge]) (shift (shift p 0 0 0) 1 1 1) (by simp [cellVertices])
      have r1' := r1 x
      have r2' := r2 x
      cases D <;> cases x <;> simp only [edgeEnd, shift, IVec3.get, reduceCtorEq, if_true, if_false] at * <;> omega

/-- C75: uniform dual contouring, likewise. -/
theorem C75_dual_contouring {env : DcEnv K'} (hsort : IsSort env.srt) {solver : Qef K' 3} (hpinv : 0 < solver.pinvTolerance)
    (hg : g.Reachable) (hf : ProperField f) (h : g.fill f sv = some g') (hn : SameStructure g' n) :
    ∃ q r cells, dualContouring env n solver = some (q, r) ∧ CellList n cells ∧ r.mesh.vertices.length = cells.length ∧
      (∀ (k : Nat) (P : IVec3), cells[k]? = some P → ∃ v, r.mesh.vertices[k]? = some v ∧ DualVertex env n solver P v) ∧
      triangles r.mesh.indices = (edgeList n).flatMap (edgeQuad n.maxCoord cells) ∧
      (∀ t ∈ triangles r.mesh.indices, t.1 < r.mesh.vertices.length ∧ t.2.1 < r.mesh.vertices.length ∧ t.2.2 < r.mesh.vertices.length) ∧
      (ClearOfBox f (samplePos g.globalPos g.step g.maxCoord) (-g.maxCoord) g.maxCoord → Watertight (triangles r.mesh.indices)) := by
  have hF := C75_converted (C07_filled hg hf h) hn
  obtain ⟨⟨cells, hcells⟩, q, r, hr, -, -, -, hv⟩ := C18_vertices hF hsort hpinv
  obtain ⟨h1, h2⟩ := hv cells hcells
  obtain ⟨-, h3, -, h4⟩ := C19_quads hF hsort hpinv hr hcells
  refine ⟨q, r, cells, hr, hcells, h1, h2, h3, fun t ht => ⟨(h4 t ht).1, (h4 t ht).2.1, (h4 t ht).2.2.1⟩, ?_⟩
  · intro hc a b
    exact C20_closed_surface hF hsort hpinv hr (fun D p hx => clear_interior hg h hn hc hx) a b

theorem converted_max (hg : g.Reachable) (h : g.fill f sv = some g') (hn : SameStructure g' n) : n.maxCoord = g.maxCoord := by
  obtain ⟨g'', e, ⟨-, hh, -⟩, -⟩ := C73_fill_materials hg f sv
  rw [h] at e; cases e
  exact hn.half.trans hh

/-- C75: the octree of dual contouring, likewise: building and contouring succeed for every tolerance, there is one vertex per leaf
that has corners of both kinds, inside the leaf, with the material of a corner; indices are valid; if the solid does not reach the
border of the octree, the surface is watertight. -/
theorem C75_dc_octree {env : DcEnv K'} {solver : Qef K' 3} (hpinv : 0 < solver.pinvTolerance) (hg : g.Reachable) (hf : ProperField f)
    (h : g.fill f sv = some g') (hn : SameStructure g' n) (o : DcOctree K') (epsilon : K') {simplify : Bool}
    (hin : CubeIn g.maxCoord (rootCube o.level)) (hk : simplify = false ∨ o.level ≤ 8) :
    ∃ q' o' r o'', o.build env n solver epsilon simplify = some (q', o') ∧ o'.contour = some (r, o'') ∧
      List.Forall₂ (fun (c : Cube) (v : MeshVertex K') => c.ClosedR v.position ∧ v.material ≠ .Empty ∧
        ∃ i, n.at (octCorner c.lo c.side i) = some v.material)
        ((leafCubes o'.root (rootCube o.level)).filter fun c => decide (Hetero n c)) r.mesh.vertices ∧
      r.mesh.indices.length % 3 = 0 ∧ (∀ t ∈ triangles r.mesh.indices,
        t.1 < r.mesh.vertices.length ∧ t.2.1 < r.mesh.vertices.length ∧ t.2.2 < r.mesh.vertices.length) ∧
      (ClearOfBox f (samplePos g.globalPos g.step g.maxCoord) (rootCube o.level).lo.x ((rootCube o.level).lo.x + (rootCube o.level).side) →
        Watertight (triangles r.mesh.indices)) := by
  have hF := C75_converted (C07_filled hg hf h) hn
  have hin' : CubeIn n.maxCoord (rootCube o.level) := by rw [converted_max hg h hn]; exact hin
  obtain ⟨q', o', r, o'', hb, -, hc⟩ := C22_completes hF (env := env) o epsilon hin' hpinv hk
  obtain ⟨r', o3, visits, hc', -, -, -, -, -, -, -, -, h3, h4, -⟩ := C22_contour hF hin' hb
  rw [hc] at hc'; cases hc'
  refine ⟨q', o', r, o'', hb, hc, ?_, h3, fun t ht => ⟨(h4 t ht).1, (h4 t ht).2.1, (h4 t ht).2.2.1⟩, ?_⟩
  · exact (C26_vertices hF hin' hb hc).imp fun c v hv => ⟨hv.1, hv.2.1, hv.2.2.1⟩
  · intro hcl a b
    exact C58_closed_surface hF hin' hb hc (fun D p hx ⟨P, hP, he⟩ => clear_border hg h hn hin hcl hx hP he) a b

/-- C75: manifold dual contouring, likewise: building succeeds, and so does contouring with any list of error bounds one after
another; indices are valid; if the solid does not reach the border of the octree, every mesh is watertight. -/
theorem C75_mdc_octree {env : DcEnv K'} {solver : Qef K' 3} (hpinv : 0 < solver.pinvTolerance) (hg : g.Reachable) (hf : ProperField f)
    (h : g.fill f sv = some g') (hn : SameStructure g' n) (o : MdcOctree K') (hs : 0 < o.globalScale * o.globalScale)
    (hin : CubeIn g.maxCoord (rootCube o.level)) (hsz : o.level ≤ 8) (bounds : List K') (ε : K') :
    ∃ q' o' o1 r o2, o.build env n solver = some (q', o') ∧ contourAll o' bounds = some o1 ∧ o1.contour ε = some (r, o2) ∧
      (∀ i ∈ r.mesh.indices, i < r.mesh.vertices.length) ∧
      (ClearOfBox f (samplePos g.globalPos g.step g.maxCoord) (rootCube o.level).lo.x ((rootCube o.level).lo.x + (rootCube o.level).side) →
        Watertight (triangles r.mesh.indices)) := by
  have hF := C75_converted (C07_filled hg hf h) hn
  have hin' : CubeIn n.maxCoord (rootCube o.level) := by rw [converted_max hg h hn]; exact hin
  obtain ⟨q', o', -, hb, -⟩ := C28_completes hF (env := env) o hin' hs hpinv (Or.inr hsz) bounds
  have hsz' := C28_sizes n (level := o.level) (by omega)
  obtain ⟨M, V, hM, hall⟩ := C28_contour hF hin' hsz' hs hb
  obtain ⟨o1, h1, h2⟩ := hall bounds
  obtain ⟨o2, h3⟩ := h2 ε
  refine ⟨q', o', o1, _, o2, hb, h1, h3, ?_, ?_⟩
  · exact (C28_indices (hM.mesh ε)).1
  · intro hcl a b
    exact (C29_contour hF hin' hsz' hs hb (fun x hx => clear_border hg h hn hin hcl hx.2.1 hx.1 hx.2.2) h1 h3 a b).2

/-- C75: dual marching cubes for any arithmetic: building succeeds; contouring succeeds if the material bytes that the build leaves
unwritten can be read; indices are valid; every leaf's vertex lies in the leaf; the surface is watertight if no two leaves on
the same side of the octree differ in sign. -/
theorem C75_dmc_octree {R : Type} (env : DmcEnv K' R) (o : DmcOctree K') (field : ScalarField K') {solver : Qef K' 4}
    (hpinv : 0 < solver.pinvTolerance) (epsilon : K') (flags : DmcFlags) (seed : Nat) (hk : o.level ≤ 9)
    (haddr : ∀ lo k lo' k', env.addr lo k = env.addr lo' k' → lo = lo' ∧ k = k') (normalize : Vec3 K' → Vec3 K') (junk : Nat → Option Material)
    (hjunk : ∀ i, junk i ≠ none) :
    ∃ q' o' r, o.build env field solver epsilon flags seed = some (q', o') ∧ o'.contour normalize junk = some r ∧
      (∀ A ∈ (locate o'.root (rootCube o.level)).leaves, A.1.ClosedR A.2.vertex) ∧
      r.mesh.indices.length % 3 = 0 ∧ (∀ t ∈ triangles r.mesh.indices,
        t.1 < r.mesh.vertices.length ∧ t.2.1 < r.mesh.vertices.length ∧ t.2.2 < r.mesh.vertices.length) ∧
      ((∀ A B x top, DualEdge o'.root (rootCube o.level) A B → SignChange A.2 B.2 → A.1.TouchesSide (rootCube o.level) x top →
          ¬ B.1.TouchesSide (rootCube o.level) x top) → Watertight (triangles r.mesh.indices)) := by
  obtain ⟨q', o', hb, -, -, -, hh, -, ht⟩ := C53_dmc_build env o field solver epsilon flags seed (by omega) hpinv
  have hh' : o'.root.height ≤ (rootCube o.level).k := by rw [rootCube_k]; exact hh
  have ha : DistinctAddresses o'.root (rootCube o.level) := C53_addresses ht haddr
  have hcard : (innerPoints (rootCube o.level)).card ≤ 8 ^ 9 := by
    refine le_trans (Finset.card_le_card (t := cubeCells (rootCube o.level)) ?_) (le_trans (cubeCells_card o.level) ?_)
    · classical
      intro p hp; unfold innerPoints at hp; exact (Finset.mem_filter.1 hp).1
    exact Nat.pow_le_pow_right (by norm_num) hk
  obtain ⟨r, hr⟩ := C50_contour_completes (normalize := normalize) (junk := junk) hh' ha
    (all := (innerPoints (rootCube o.level)).toList.map fun p => (p, dualCell o'.root (rootCube o.level) p))
    (fun p q hm => by
      obtain ⟨h1, h2⟩ := minimal_inner hh' hm
      exact List.mem_map.2 ⟨p, Finset.mem_toList.2 h1, by rw [h2]⟩)
    (by rw [List.length_map, Finset.length_toList]; norm_num at hcard ⊢; omega)
    (fun _ _ _ _ => Or.inr hjunk)
  obtain ⟨h1, h2⟩ := C50_indices_valid hh' ha hr
  exact ⟨q', o', r, hb, hr, C61_vertex_in_cell ht, h1, fun t ht => ⟨(h2 t ht).1, (h2 t ht).2.1, (h2 t ht).2.2.1⟩,
    fun hbd a b => C62_closed_surface hh' ha hr hbd a b⟩

end Mesh

/-! ### A concrete case: fill in `double`, mesh in `float` -/

noncomputable section

/-- The functions of `<cmath>`, correctly rounded. -/
@[instance_reducible] def roundedElem (F : FloatFormat) : Elem (Fl F) :=
  ⟨fun x => Fl.round F (Real.sqrt x.val), fun x => Fl.round F (Real.arctan x.val), fun x => Fl.round F (Real.sin x.val),
    fun x => Fl.round F (Real.cos x.val), Fl.round F (Real.pi / 2)⟩

/-- Solid in a single vertex of `roundGrid`. -/
def dotField : ScalarField (Fl f64) where
  value q := if q.x = n64 2 (by norm_num) ∧ q.y = 0 ∧ q.z = 0 then -1 else 1
  grad _ := ⟨1, 0, 0⟩
  material _ _ := .Stone

theorem stepped64 {a : Fl f64} {i : ℤ} (ha : a.val = i) (hi : |i| ≤ 1000) : ∀ k : Nat, k ≤ 1000 →
    (stepped a roundGrid.step k).val = ((i + 3 * k : ℤ) : ℝ)
  | 0, _ => by simp [stepped, ha]
  | k + 1, hk => by
    have ih := stepped64 ha hi k (by omega)
    show f64.fl ((stepped a roundGrid.step k).val + ((3 : ℤ) : ℝ)) = _
    rw [ih]
    have := abs_le.1 hi
    refine f64_int _ (by push_cast; ring) (abs_le.2 ⟨?_, ?_⟩) <;> push_cast <;> omega

theorem low64 (c : ℤ) (hc : |c| ≤ 1000) (x : Fl f64) (hx : x.val = c) :
    ((((-1 : ℤ) : Fl f64)) * roundGrid.step + x).val = ((c - 3 : ℤ) : ℝ) := by
  have e1 : (((-1 : ℤ) : Fl f64)).val = ((-1 : ℤ) : ℝ) := Fl.val_int (by norm_num)
  have e2 : f64.fl ((((-1 : ℤ) : Fl f64)).val * ((3 : ℤ) : ℝ)) = ((-3 : ℤ) : ℝ) :=
    f64_int (-3) (by rw [e1]; norm_num) (by norm_num)
  show f64.fl (f64.fl ((((-1 : ℤ) : Fl f64)).val * ((3 : ℤ) : ℝ)) + x.val) = _
  rw [e2, hx]
  have := abs_le.1 hc
  exact f64_int _ (by push_cast; ring) (abs_le.2 ⟨by omega, by omega⟩)

theorem dot_sample (p : IVec3) (hp : InCube 1 p) :
    (samplePos roundGrid.globalPos roundGrid.step roundGrid.maxCoord p).x.val = ((2 + 3 * p.x : ℤ) : ℝ) ∧
    (samplePos roundGrid.globalPos roundGrid.step roundGrid.maxCoord p).y.val = ((3 * p.y : ℤ) : ℝ) ∧
    (samplePos roundGrid.globalPos roundGrid.step roundGrid.maxCoord p).z.val = ((3 * p.z : ℤ) : ℝ) := by
  obtain ⟨h1, h2, h3⟩ := hp
  have zero : (0 : Fl f64).val = ((0 : ℤ) : ℝ) := by rw [Fl.val_zero]; norm_num
  have lx := low64 2 (by norm_num) (n64 2 (by norm_num)) rfl
  have lz := low64 0 (by norm_num) 0 zero
  refine ⟨?_, ?_, ?_⟩
  · have := stepped64 lx (by norm_num) (p.x + 1).toNat (by omega)
    refine Eq.trans this ?_
    congr 1
    push_cast
    omega
  · have := stepped64 lz (by norm_num) (p.y + 1).toNat (by omega)
    refine Eq.trans this ?_
    congr 1
    push_cast
    omega
  · have := stepped64 lz (by norm_num) (p.z + 1).toNat (by omega)
    refine Eq.trans this ?_
    congr 1
    push_cast
    omega

theorem dot_value (p : IVec3) (hp : InCube 1 p) :
    dotField.value (samplePos roundGrid.globalPos roundGrid.step roundGrid.maxCoord p) ≤ 0 ↔ p = ⟨0, 0, 0⟩ := by
  obtain ⟨h1, h2, h3⟩ := dot_sample p hp
  have e : ∀ (a : Fl f64) (i j : ℤ) (b : Fl f64), a.val = i → b.val = j → (a = b ↔ i = j) := by
    intro a i j b ha hb
    rw [Fl.ext_iff, ha, hb, Int.cast_inj]
  have zero : (0 : Fl f64).val = ((0 : ℤ) : ℝ) := by rw [Fl.val_zero]; norm_num
  unfold dotField
  dsimp only
  have e1 := e _ _ 2 (n64 2 (by norm_num)) h1 rfl
  have e2 := e _ _ 0 _ h2 zero
  have e3 := e _ _ 0 _ h3 zero
  rcases p with ⟨x, y, z⟩
  simp only [IVec3.mk.injEq]
  split_ifs with hc <;> rw [e1, e2, e3] at hc
  · rw [Fl.le_iff, Fl.val_neg, Fl.val_one, Fl.val_zero]
    constructor
    · intro _; dsimp only at hc; refine ⟨?_, ?_, ?_⟩ <;> omega
    · intro _; norm_num
  · rw [Fl.le_iff, Fl.val_one, Fl.val_zero]
    constructor
    · intro h; norm_num at h
    · rintro ⟨rfl, rfl, rfl⟩
      exact absurd ⟨by norm_num, by norm_num, by norm_num⟩ hc

/-- All hypotheses of the theorems above hold together for this grid, whose storages are not empty: fill in `double`, octree of level 1
and meshes in `float`. -/
theorem round_case : ∃ g' : Grid (Fl f64), roundGrid.fill dotField (bisectionFinder 8) = some g' ∧ roundGrid.Reachable ∧
    ProperField dotField ∧ SameStructure g' (g'.narrow f32) ∧ (∃ e ∈ (g'.narrow f32).edges .X, e.lesser = ⟨0, 0, 0⟩) ∧
    ClearOfBox dotField (samplePos roundGrid.globalPos roundGrid.step roundGrid.maxCoord) (-roundGrid.maxCoord) roundGrid.maxCoord ∧
    CubeIn roundGrid.maxCoord (rootCube 1) ∧
    ClearOfBox dotField (samplePos roundGrid.globalPos roundGrid.step roundGrid.maxCoord) (rootCube 1).lo.x
      ((rootCube 1).lo.x + (rootCube 1).side) := by
  obtain ⟨g', e, -⟩ := C73_fill_materials roundGrid_reachable dotField (bisectionFinder 8)
  have hclear : ClearOfBox dotField (samplePos roundGrid.globalPos roundGrid.step roundGrid.maxCoord) (-1) 1 := by
    rintro p hp ⟨a, ha⟩
    rw [← not_le, dot_value p (inCube_get.2 hp)]
    rintro rfl
    cases a <;> simp [IVec3.get] at ha
  refine ⟨g', e, roundGrid_reachable, fun _ _ => by simp [dotField], narrow_same f32 g', ?_, hclear, ?_, hclear⟩
  · have hm : sampledRecord dotField (bisectionFinder 8) (samplePos roundGrid.globalPos roundGrid.step roundGrid.maxCoord)
        (worldPos roundGrid.globalPos roundGrid.step) roundGrid.step .X ⟨0, 0, 0⟩ ∈ g'.edges .X := by
      refine ((C73_fill_edges roundGrid_reachable e .X).1 _).2 ⟨⟨0, 0, 0⟩, by decide, ?_, rfl⟩
      unfold Crosses
      rw [dot_value ⟨0, 0, 0⟩ (by decide), dot_value (edgeEnd .X ⟨0, 0, 0⟩) (by decide)]
      decide
    exact ⟨_, List.mem_map.2 ⟨_, hm, rfl⟩, rfl⟩
  · intro p hp
    simpa [Cube.Closed, rootCube, Cube.side, InCube, roundGrid, Grid.maxCoord] using hp

attribute [local instance] roundedElem

/-- Marching cubes in `float` of the grid filled in `double`. -/
example (nrm : Vec3 (Fl f32) → Vec3 (Fl f32)) : ∃ (g' : Grid (Fl f64)) (r : PlacedMesh (Fl f32)),
    roundGrid.fill dotField (bisectionFinder 8) = some g' ∧ marchingCubes nrm (g'.narrow f32) = some r ∧
    Watertight (triangles r.mesh.indices) ∧ OneFan (triangles r.mesh.indices) := by
  obtain ⟨g', h, hg, hf, hn, -, hc, -⟩ := round_case
  obtain ⟨r, hr, -, -, h1, h2⟩ := C75_marching_cubes hg hf h hn nrm
  exact ⟨g', r, h, hr, h2 hc, h1⟩

/-- The octree of dual contouring in `float` of the grid filled in `double`, with any tolerance. -/
example (env : DcEnv (Fl f32)) (solver : Qef (Fl f32) 3) (hp : 0 < solver.pinvTolerance) (root : DcNode (Fl f32)) (epsilon : Fl f32) :
    ∃ (g' : Grid (Fl f64)) (q' : Qef (Fl f32) 3) (o' o'' : DcOctree (Fl f32)) (r : PlacedMesh (Fl f32)),
      roundGrid.fill dotField (bisectionFinder 8) = some g' ∧
      (⟨1, ⟨0, 0, 0⟩, 1, root⟩ : DcOctree (Fl f32)).build env (g'.narrow f32) solver epsilon true = some (q', o') ∧
      o'.contour = some (r, o'') ∧ Watertight (triangles r.mesh.indices) := by
  obtain ⟨g', h, hg, hf, hn, -, -, hin, hc⟩ := round_case
  obtain ⟨q', o', r, o'', h1, h2, -, -, -, h3⟩ := C75_dc_octree (env := env) hp hg hf h hn (⟨1, ⟨0, 0, 0⟩, 1, root⟩ : DcOctree (Fl f32)) epsilon
    (simplify := true) hin (Or.inr (by norm_num))
  exact ⟨g', q', o', o'', r, h, h1, h2, h3 hc⟩

end
end Isomesh
