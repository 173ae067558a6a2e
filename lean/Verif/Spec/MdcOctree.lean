import Verif.Spec.DcOctree
import Verif.Model.MdcOctree
import Mathlib.Logic.Relation
import Mathlib.Data.Set.Card

/-! Specification vocabulary for manifold dual contouring on an octree. -/

namespace Isomesh.Spec

section
variable {K : Type} [Add K] [_root_.Sub K] [Mul K] [Div K] [Neg K] [Zero K] [One K] [OfNat K 2] [OfScientific K] [NatCast K] [IntCast K]
  [Fabs K] [Elem K] [LinearOrder K]

/-- A crossing edge seen from one of the cells it belongs to. -/
structure CellCrossing where
  cell : IVec3
  axis : Axis
  at_ : IVec3
  deriving DecidableEq

/-- The edge of a crossing. -/
def CellCrossing.edge (x : CellCrossing) : LEdge := ⟨x.axis, x.at_⟩

/-- A crossing edge of the cell `P`. -/
def CrossingOf (g : Grid K) (P : IVec3) (e : LEdge) : Prop := CrossingEdge g e.axis e.at_ ∧ EdgeOfCell P e.axis e.at_

/-- The crossing consists of a cell of the cube and a crossing edge of the cell. -/
def CellCrossing.In (g : Grid K) (c : Cube) (x : CellCrossing) : Prop := c.Has x.cell ∧ CrossingOf g x.cell x.edge

/-- The end of a crossing edge that is inside the solid. -/
def solidEndOf (g : Grid K) (e : LEdge) : IVec3 := if solidAt g e.at_ then e.at_ else edgeEnd e.axis e.at_

/-- The edge of the cell `P` lies on the face of the cell orthogonal to `A`, on the low (`s = 0`) or high (`s = 1`) side. -/
def OnFace (P : IVec3) (A : Axis) (s : Int) (e : LEdge) : Prop := e.axis ≠ A ∧ e.at_.get A = P.get A + s

/-- The curve in which the surface meets a face of the cell `P` joins two crossing edges of the face: they are the only
ones of the face, or (with four crossing edges) they have the same solid endpoint. -/
def SheetStep (g : Grid K) (P : IVec3) (e e' : LEdge) : Prop :=
  CrossingOf g P e ∧ CrossingOf g P e' ∧
  (solidEndOf g e = solidEndOf g e' ∨
    ∃ A s, (s = 0 ∨ s = 1) ∧ OnFace P A s e ∧ OnFace P A s e' ∧ ∀ f, CrossingOf g P f → OnFace P A s f → f = e ∨ f = e')

/-- Exactly two opposite corners of the cell `P` are empty. -/
def TwoHoles (g : Grid K) (P : IVec3) : Prop :=
  ∃ i : Fin 8, ∀ j : Fin 8, solidAt g (octCorner P 1 j) = false ↔ j = i ∨ (i : Nat) + j = 7

/-- Two crossing edges of the cell `P` belong to one sheet of the surface inside the cell.  (The two sheets of a cell with
exactly two opposite empty corners count as one: this is how the table of the library treats them, see `C27_joined`.) -/
def SameSheet (g : Grid K) (P : IVec3) (e e' : LEdge) : Prop :=
  TwoHoles g P ∨ Relation.EqvGen (SheetStep g P) e e'

/-- Two crossings in the cube are neighbours on the surface: same sheet of one cell, or one and the same edge, with all four
cells around it in the cube. -/
def LinkStep (g : Grid K) (c : Cube) (x y : CellCrossing) : Prop :=
  x.In g c ∧ y.In g c ∧
  ((x.cell = y.cell ∧ SameSheet g x.cell x.edge y.edge) ∨ (x.edge = y.edge ∧ ¬ OnBorder c x.axis x.at_))

/-- Two crossings belong to one connected part of the surface inside the cube. -/
def Linked (g : Grid K) (c : Cube) (x y : CellCrossing) : Prop := Relation.EqvGen (LinkStep g c) x y

/-- The cubes of the octree with root cube `c`: the root cube and, repeatedly, the octants. -/
inductive Dyadic (root : Cube) : Cube → Prop
  | root : Dyadic root root
  | octant {c : Cube} (i : Fin 8) : 0 < c.k → Dyadic root c → Dyadic root (c.octant i)

/-- The crossing of the `i`-th cell around the edge `e`. -/
def LEdge.seen (e : LEdge) (i : Fin 4) : CellCrossing := ⟨edgeCorner e.axis e.at_ 1 i, e.axis, e.at_⟩

/-- `m` is a manifold dual contouring mesh of the grid in the cube, `V` giving the number of the vertex used for each crossing. -/
structure MdcMesh (g : Grid K) (root : Cube) (V : CellCrossing → Nat) (m : Mesh K) : Prop where
  /-- Two triangles (less the degenerate ones) for each crossing edge with all four cells around it in the cube, joining
  the vertices of its four crossings, oriented from the solid end to the empty one. -/
  quads : ∃ es : List LEdge, es.Nodup ∧ (∀ e, e ∈ es ↔ CrossingEdge g e.axis e.at_ ∧ ¬ OnBorder root e.axis e.at_) ∧
    triangles m.indices = es.flatMap fun e =>
      octQuad (V (e.seen 0)) (V (e.seen 1)) (V (e.seen 2)) (V (e.seen 3)) (solidAt g e.at_)
  /-- Whole triangles only. -/
  whole : m.indices.length = 3 * (triangles m.indices).length
  /-- The crossings use valid vertices, and every vertex is used by a crossing. -/
  valid : ∀ x : CellCrossing, x.In g root → V x < m.vertices.length
  used : ∀ n < m.vertices.length, ∃ x : CellCrossing, x.In g root ∧ V x = n
  /-- Crossings of one sheet of a cell use one vertex. -/
  sheet : ∀ x y : CellCrossing, x.In g root → y.In g root → x.cell = y.cell → SameSheet g x.cell x.edge y.edge → V x = V y

/-! ### Vertices -/

/-- A vertex with its fitting error and the error system kept for merging. -/
structure FitVertex (K : Type) where
  position : Vec3 K
  normal : Vec3 K
  material : Material
  error : K
  state : QState K 3

/-- The vertex is the solution in the cube of the system collected in the solver `q1`. -/
def BoxFit (env : DcEnv K) (c : Cube) (q1 : Qef K 3) (w : FitVertex K) : Prop :=
  ∃ q2 x q3, q1.solve qef3Rows env.tiny ![(c.lo.x : K), c.lo.y, c.lo.z] ![((c.lo.x + 2 ^ c.k : Int) : K), ((c.lo.y + 2 ^ c.k : Int) : K), ((c.lo.z + 2 ^ c.k : Int) : K)] =
      some (q2, x) ∧ w.position = Vec3.ofVecN x ∧ q2.eval qef3Rows x = some w.error ∧ q2.state qef3Rows 30 env.tiny = some (q3, w.state)

/-- The vertex `w` stands for the crossings `X` of the cube `c`. -/
inductive VertexFit (env : DcEnv K) (g : Grid K) (options : Qef K 3) : Cube → Set CellCrossing → FitVertex K → Prop
  /-- A vertex of a cell: fitted to the planes of all crossings of one sheet in the cell; the material is picked from the
  solid ends of these edges. -/
  | cell {P : IVec3} {X : Set CellCrossing} {w : FitVertex K} {es : List (GridEdge K)} {q1 : Qef K 3} {ps : List IVec3} :
      (∃ x ∈ X, ∀ y, y ∈ X ↔ y.cell = P ∧ CrossingOf g P y.edge ∧ SameSheet g P x.edge y.edge) →
      es.Nodup → (∀ e, e ∈ es ↔ e ∈ edgeList g ∧ ⟨P, e.axis, e.lesser⟩ ∈ X) →
      runOps qef3Rows 30 env.tiny options (.reset :: es.map (planeOp env.eps)) = some q1 → BoxFit env ⟨P, 0⟩ q1 w →
      w.normal = env.normalize ((es.map fun e => edgeNormal env.eps e.gradient).foldl Vec3.add ⟨0, 0, 0⟩) →
      ps.Nodup → (∀ p, p ∈ ps ↔ ∃ x ∈ X, solidEndOf g x.edge = p) →
      w.material = (FilterFast.new.addMany (ps.map (materialAt g))).select → VertexFit env g options ⟨P, 0⟩ X w
  /-- A vertex of a subdivided node: fitted to the joint error system of the vertices it replaces, which stand for
  disjoint sets of crossings in smaller cubes; the material is picked from theirs. -/
  | node {c : Cube} {X : Set CellCrossing} {w : FitVertex K} {kids : List (Cube × Set CellCrossing × FitVertex K)} {q1 : Qef K 3} :
      kids ≠ [] → (∀ k ∈ kids, VertexFit env g options k.1 k.2.1 k.2.2) → (∀ k ∈ kids, Dyadic c k.1 ∧ k.1.k < c.k) →
      kids.Pairwise (fun k k' => ∀ x ∈ k.2.1, x ∉ k'.2.1) → (∀ x, x ∈ X ↔ ∃ k ∈ kids, x ∈ k.2.1) →
      runOps qef3Rows 30 env.tiny options (.reset :: kids.map fun k => .merge k.2.2.state) = some q1 → BoxFit env c q1 w →
      w.normal = env.normalize ((kids.map fun k => k.2.2.normal).foldl Vec3.add ⟨0, 0, 0⟩) →
      w.material = (FilterFast.new.addMany (kids.map fun k => k.2.2.material)).select → VertexFit env g options c X w

/-- The meshes `M ε` of one octree for all error bounds `ε`, `V ε` giving the vertices used; `scale` is the scale of the grid. -/
structure MdcSeries (env : DcEnv K) (g : Grid K) (options : Qef K 3) (root : Cube) (scale : K) (M : K → Mesh K) (V : K → CellCrossing → Nat) :
    Prop where
  mesh : ∀ ε, MdcMesh g root (V ε) (M ε)
  /-- A vertex stands for a set of crossings in a cube of the octree connected within the cube; it is fitted to them, and
  if it is not a vertex of a single cell, its error is within the bound. -/
  fit : ∀ ε (n : Nat) v, (M ε).vertices[n]? = some v → ∃ c w, Dyadic root c ∧
    VertexFit env g options c {x | x.In g root ∧ V ε x = n} w ∧ v = ⟨w.position, w.normal, w.material⟩ ∧
    (∀ x y : CellCrossing, x.In g root → y.In g root → V ε x = n → V ε y = n → Linked g c x y) ∧
    (c.k = 0 ∨ w.error ≤ ε / (scale * scale))
  /-- A greater bound never splits vertices. -/
  mono : ∀ ε ε', ε ≤ ε' → ∀ x y : CellCrossing, x.In g root → y.In g root → V ε x = V ε y → V ε' x = V ε' y
  /-- A great enough bound leaves one vertex for each connected part of the surface. -/
  coarse : ∃ E, ∀ ε, E ≤ ε → ∀ x y : CellCrossing, x.In g root → y.In g root → (V ε x = V ε y ↔ Linked g root x y)

/-- Number of cells of the cube crossed by the surface. -/
noncomputable def crossingCells (g : Grid K) (c : Cube) : Nat := Set.ncard {P | c.Has P ∧ CrossingCell g P}

/-- The octree after `contour` calls with the given error bounds. -/
noncomputable def contourAll (o : MdcOctree K) (bounds : List K) : Option (MdcOctree K) :=
  bounds.foldlM (fun o ε => (o.contour ε).map (·.2)) o

end

end Isomesh.Spec
