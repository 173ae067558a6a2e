import Verif.Spec.Octree
import Verif.Spec.DualContouring
import Verif.Model.DcOctree
import Verif.Spec.Cube

/-! Specification vocabulary for dual contouring on an octree. -/

namespace Isomesh.Spec

section
variable {K : Type} [Add K] [_root_.Sub K] [Mul K] [Div K] [Neg K] [Zero K] [One K] [OfNat K 2] [OfScientific K] [NatCast K] [IntCast K]
  [Fabs K] [Elem K] [LinearOrder K]

/-- A lattice point of the closed cube. -/
def Cube.Closed (c : Cube) (p : IVec3) : Prop :=
  (c.lo.x ≤ p.x ∧ p.x ≤ c.lo.x + c.side) ∧ (c.lo.y ≤ p.y ∧ p.y ≤ c.lo.y + c.side) ∧
  (c.lo.z ≤ p.z ∧ p.z ≤ c.lo.z + c.side)

/-- A point of the closed cube. -/
def Cube.ClosedR (c : Cube) (v : Vec3 K) : Prop :=
  ((c.lo.x : K) ≤ v.x ∧ v.x ≤ ((c.lo.x + 2 ^ c.k : Int) : K)) ∧ ((c.lo.y : K) ≤ v.y ∧ v.y ≤ ((c.lo.y + 2 ^ c.k : Int) : K)) ∧
  ((c.lo.z : K) ≤ v.z ∧ v.z ≤ ((c.lo.z + 2 ^ c.k : Int) : K))

/-- The cube has corners inside and corners outside the solid. -/
def Hetero (g : Grid K) (c : Cube) : Prop :=
  ∃ i j, solidAt g (octCorner c.lo c.side i) ≠ solidAt g (octCorner c.lo c.side j)

instance (g : Grid K) (c : Cube) : Decidable (Hetero g c) := by unfold Hetero; infer_instance

/-- The cube of an octree with root size `2 ^ level`: centred at the origin (a single cell starts at the origin). -/
def rootCube (level : Nat) : Cube :=
  if level = 0 then ⟨⟨0, 0, 0⟩, 0⟩ else ⟨⟨-2 ^ (level - 1), -2 ^ (level - 1), -2 ^ (level - 1)⟩, level⟩

/-- The cube is part of the grid. -/
def CubeIn (h : Int) (c : Cube) : Prop := ∀ p, c.Closed p → InCube h p

/-- The other end of the segment of length `s` from `p` along `D`. -/
def segEnd (D : Axis) (p : IVec3) (s : Int) : IVec3 :=
  match D with
  | .X => shift p s 0 0
  | .Y => shift p 0 s 0
  | .Z => shift p 0 0 s

/-- The edge is on the boundary of the cube: some cell around it is outside. -/
def OnBorder (c : Cube) (D : Axis) (p : IVec3) : Prop := ∃ R ∈ cellsAroundEdge D p, ¬ c.Has R

/-- The cubes of the leaves of an octree in the cube `c`, in child order. -/
def leafCubes {N L : Type} (t : Oct N L) (c : Cube) : List Cube := (locate t c).leaves.map (·.1)

/-- The segment from `p` along `D` of length `2 ^ j` is a minimal edge among the leaf cubes, and `q` are the cubes around
it: each of the four cubes of that size around the segment is part of `q i`, and one of them is a whole leaf. -/
structure MinimalSeg (cubes : List Cube) (D : Axis) (p : IVec3) (j : Nat) (q : Fin 4 → Cube) : Prop where
  leaf : ∀ i, q i ∈ cubes
  contains : ∀ i, Cube.Sub ⟨edgeCorner D p (2 ^ j) i, j⟩ (q i)
  least : ∃ i, q i = ⟨edgeCorner D p (2 ^ j) i, j⟩

/-- Two triangles for a quad between the vertices `v0 v1 v2 v3` (listed counterclockwise about the positive axis):
counterclockwise if the lesser endpoint is solid, clockwise otherwise.  Triangles with two equal vertices (several of the
leaves around the edge are one and the same) are left out. -/
def octQuad (v0 v1 v2 v3 : Nat) (lesserSolid : Bool) : List (Nat × Nat × Nat) :=
  (if lesserSolid then [(v0, v1, v2), (v0, v2, v3)] else [(v0, v2, v1), (v0, v3, v2)]).filter
    fun t => decide (t.1 ≠ t.2.1 ∧ t.2.1 ≠ t.2.2 ∧ t.1 ≠ t.2.2)

/-- The triangles expected for the segment from `p` along `D` of length `2 ^ j` with the leaves `q` around it: none if
both ends are on the same side of the surface; vertices are numbered as in `cells`. -/
def octEdgeQuad (g : Grid K) (cells : List Cube) (D : Axis) (p : IVec3) (j : Nat) (q : Fin 4 → Cube) : List (Nat × Nat × Nat) :=
  if solidAt g p = solidAt g (segEnd D p (2 ^ j)) then []
  else octQuad (cells.idxOf (q 0)) (cells.idxOf (q 1)) (cells.idxOf (q 2)) (cells.idxOf (q 3)) (solidAt g p)

/-! ### Collapsing a node -/

/-- The solid corners of a cube are connected along its edges, and so are the empty ones. -/
def ManifoldPattern (f : Fin 8 → Bool) : Prop :=
  ∀ a b, f a = f b → Relation.ReflTransGen (fun c d : Fin 8 => adjacentCorners c d = true ∧ f c = f a ∧ f d = f a) a b

/-- One of the 27 points with coordinates 0, 1, 2. -/
def HalfGrid (p : IVec3) : Prop := ∀ a, p.get a = 0 ∨ p.get a = 1 ∨ p.get a = 2

/-- Topological safety of a cube given the materials at its corners (even coordinates) and at the midpoints of its edges,
faces and of itself: the coarse and the fine corner patterns are manifold, and the material at each midpoint occurs at a
corner of the edge (of half or full length), face or cube it is the midpoint of. -/
structure TopoSafe (M : IVec3 → Material) : Prop where
  coarse : ManifoldPattern fun i => decide (M (octCorner ⟨0, 0, 0⟩ 2 i) ≠ .Empty)
  fine : ∀ i, ManifoldPattern fun j => decide (M (octCorner (octOff i) 1 j) ≠ .Empty)
  edges : ∀ D p, HalfGrid p → p.get D = 1 → ∃ q, HalfGrid q ∧ q.get D ≠ 1 ∧ (∀ a, a ≠ D → q.get a = p.get a) ∧ M p = M q
  faces : ∀ D p, HalfGrid p → (∀ a, a ≠ D → p.get a = 1) →
    ∃ q, HalfGrid q ∧ (∀ a, a ≠ D → q.get a ≠ 1) ∧ q.get D = p.get D ∧ M p = M q
  centre : ∃ q, HalfGrid q ∧ (∀ a, q.get a ≠ 1) ∧ M ⟨1, 1, 1⟩ = M q

/-- The material of a vertex of the grid. -/
def materialAt (g : Grid K) (p : IVec3) : Material := (g.at p).getD .Empty

/-- The point of the cube with coordinates `p` in units of half its side. -/
def halfPoint (c : Cube) (p : IVec3) : IVec3 :=
  ⟨c.lo.x + 2 ^ (c.k - 1) * p.x, c.lo.y + 2 ^ (c.k - 1) * p.y, c.lo.z + 2 ^ (c.k - 1) * p.z⟩

/-- Error systems of the leaves of the octants crossed by the surface. -/
noncomputable def octantStates (g : Grid K) (c : Cube) (l : Fin 8 → DcLeaf K) : List (QState K 3) :=
  (List.finRange 8).filterMap fun i => if Hetero g (c.octant i) then (l i).dual.map (·.qef) else none

/-- The joint error system of the octants, solved in the cube with the given options, gives the point `x` with the
error `err`. -/
def Fit (env : DcEnv K) (g : Grid K) (options : Qef K 3) (c : Cube) (l : Fin 8 → DcLeaf K) (x : VecN K 3) (err : K) : Prop :=
  ∃ q1 q2, runOps qef3Rows 30 env.tiny options (.reset :: (octantStates g c l).map .merge) = some q1 ∧
    q1.solve qef3Rows env.tiny ![(c.lo.x : K), c.lo.y, c.lo.z] ![((c.lo.x + 2 ^ c.k : Int) : K), ((c.lo.y + 2 ^ c.k : Int) : K), ((c.lo.z + 2 ^ c.k : Int) : K)] =
      some (q2, x) ∧ q2.eval qef3Rows x = some err

/-! ### Without collapsing -/

/-- Two triangles for the unit edge at `p` along `D`, vertices being numbered as in `cells`. -/
def unitQuad (g : Grid K) (cells : List Cube) (D : Axis) (p : IVec3) : List (Nat × Nat × Nat) :=
  match (cellsAroundEdge D p).map fun P => cells.idxOf ⟨P, 0⟩ with
  | [v0, v1, v2, v3] => if solidAt g p then [(v0, v1, v2), (v0, v2, v3)] else [(v0, v2, v1), (v0, v3, v2)]
  | _ => []

end

end Isomesh.Spec
