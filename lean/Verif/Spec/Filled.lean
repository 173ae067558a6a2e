import Verif.Model.Grid
import Verif.Spec.Fill

/-! Specification of a grid ready for meshing, and of triangle meshes as lists of directed sides. -/

namespace Isomesh.Spec

variable {K : Type} [Add K] [Sub K] [Mul K] [Div K] [Zero K] [IntCast K] [LE K] [LT K] [DecidableLE K] [DecidableLT K]

/-- The grid vertex `p` is inside the solid. -/
def solidAt (g : Grid K) (p : IVec3) : Bool :=
  match g.at p with
  | some m => decide (m ≠ .Empty)
  | none => false

/-- The in-grid edge at `p` along `D` joins a solid and an empty vertex. -/
def CrossingEdge (g : Grid K) (D : Axis) (p : IVec3) : Prop :=
  (∀ v ∈ edgeVertices D p, InCube g.maxCoord v) ∧ solidAt g p ≠ solidAt g (edgeEnd D p)

/-- The grid has materials at all its points and its storages hold records of different edges of the grid, sorted.  Nothing is
said about which edges have records: what `fill` leaves in any case, also when it met a NaN. -/
structure Stored (g : Grid K) : Prop where
  wf : g.WF
  written : ∀ p, InCube g.maxCoord p → ∃ m, g.at p = some m
  edge_in : ∀ D, ∀ e ∈ g.edges D, ∀ v ∈ edgeVertices D e.lesser, InCube g.maxCoord v
  edge_axis : ∀ D, ∀ e ∈ g.edges D, e.axis = D
  sorted : ∀ D, (g.edges D).Pairwise (fun a b => LexYXZ a.lesser b.lesser)

/-- A grid whose materials and edge storages are consistent with each other, as left by `fill` (see `C07_filled`): all
vertices have materials, and the storages hold exactly the crossing edges, sorted, with the right attributes. -/
structure Filled (g : Grid K) : Prop where
  wf : g.WF
  written : ∀ p, InCube g.maxCoord p → ∃ m, g.at p = some m
  edge_iff : ∀ D p, (∃ e ∈ g.edges D, e.lesser = p) ↔ CrossingEdge g D p
  edge_axis : ∀ D, ∀ e ∈ g.edges D, e.axis = D
  edge_solid : ∀ D, ∀ e ∈ g.edges D, e.lesserSolid = solidAt g e.lesser
  edge_mat : ∀ D, ∀ e ∈ g.edges D,
    g.at (if e.lesserSolid then e.lesser else edgeEnd D e.lesser) = some e.material
  sorted : ∀ D, (g.edges D).Pairwise (fun a b => LexYXZ a.lesser b.lesser)

/-- The grid `g'` is `g` with the numbers in its records replaced by others, of any other number type and in any way. -/
structure SameStructure {K' : Type} (g : Grid K) (g' : Grid K') : Prop where
  size : g'.size = g.size
  half : g'.half = g.half
  mat : g'.mat = g.mat
  edges : ∀ D, List.Forall₂ (fun (e : GridEdge K) (e' : GridEdge K') => e'.lesser = e.lesser ∧ e'.axis = e.axis ∧
    e'.lesserSolid = e.lesserSolid ∧ e'.material = e.material) (g.edges D) (g'.edges D)

/-- A value that compares with zero like a number: either positive or not.  (A floating-point NaN is neither positive nor
non-positive.) -/
def NotNaN (v : K) : Prop := v > 0 ↔ ¬ v ≤ 0

/-- A field never reports `Empty` where its value is non-positive (true of the default implementation,
scalar_field.hpp:50-53). -/
def ProperField (f : ScalarField K) : Prop := ∀ q, f.value q ≤ 0 → f.material q (f.value q) ≠ .Empty

/-- All stored edges of a grid, X first, then Y, then Z. -/
def edgeList (g : Grid K) : List (GridEdge K) := g.edges .X ++ g.edges .Y ++ g.edges .Z

/-- A lattice edge: axis and lesser endpoint. -/
structure LEdge where
  axis : Axis
  at_ : IVec3
  deriving DecidableEq, Repr

/-- Lattice edge of a stored record. -/
def LEdge.ofGridEdge (e : GridEdge K) : LEdge := ⟨e.axis, e.lesser⟩

/-- Both endpoints of the lattice edge lie in the boundary plane of the cube where the coordinate along `a` is `v`. -/
def LEdge.InPlane (a : Axis) (v : Int) (e : LEdge) : Prop := ∀ q ∈ edgeVertices e.axis e.at_, q.get a = v

/-- The two lattice edges lie in one and the same face plane of the cube `[-h, h]^3`. -/
def OnCommonBoundaryPlane (h : Int) (e e' : LEdge) : Prop :=
  ∃ a : Axis, ∃ v : Int, (v = h ∨ v = -h) ∧ e.InPlane a v ∧ e'.InPlane a v

/-- The field is positive at the positions `pos` of the lattice points on the surface of the box `[lo, hi]^3`: the solid does not
reach the surface of the box. -/
def ClearOfBox (f : ScalarField K) (pos : IVec3 → Vec3 K) (lo hi : Int) : Prop :=
  ∀ p : IVec3, (∀ a, lo ≤ p.get a ∧ p.get a ≤ hi) → (∃ a, p.get a = lo ∨ p.get a = hi) → 0 < f.value (pos p)

/-! ### Triangles and sides -/

/-- Index array of a mesh in groups of three. -/
def triangles : List Nat → List (Nat × Nat × Nat)
  | a :: b :: c :: rest => (a, b, c) :: triangles rest
  | _ => []

/-- Directed sides of triangles. -/
def sides (ts : List (Nat × Nat × Nat)) : List (Nat × Nat) :=
  ts.flatMap fun t => [(t.1, t.2.1), (t.2.1, t.2.2), (t.2.2, t.1)]

/-- Every side of a triangle is met by as many sides in the opposite direction: the triangles bound a volume, without holes. -/
def Watertight (ts : List (Nat × Nat × Nat)) : Prop := ∀ a b, (sides ts).count (a, b) = (sides ts).count (b, a)

end Isomesh.Spec
