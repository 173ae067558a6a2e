import Verif.Spec.Filled
import Verif.Model.UniformDC
import Verif.Spec.Qef

/-! Specification vocabulary for dual contouring on a grid. -/

namespace Isomesh.Spec

section
variable {K : Type} [Add K] [Sub K] [Mul K] [Div K] [Zero K] [IntCast K] [LinearOrder K]

/-- The lattice edge at `p` along `D` is an edge of the unit cell at `P`. -/
def EdgeOfCell (P : IVec3) (D : Axis) (p : IVec3) : Prop := ∀ q ∈ edgeVertices D p, q ∈ cellVertices P

/-- A cell of the grid that has at least one edge crossing the surface. -/
def CrossingCell (g : Grid K) (P : IVec3) : Prop :=
  CellIn g.maxCoord P ∧ ∃ D p, CrossingEdge g D p ∧ EdgeOfCell P D p

/-- `cells` lists the crossing cells, each once, in (Y, X, Z) order. -/
structure CellList (g : Grid K) (cells : List IVec3) : Prop where
  sorted : cells.Pairwise LexYXZ
  mem : ∀ P, P ∈ cells ↔ CrossingCell g P

/-- All four cells around the edge belong to the grid. -/
def InteriorEdge (h : Int) (D : Axis) (p : IVec3) : Prop := ∀ c ∈ cellsAroundEdge D p, CellIn h c

/-- The two triangles expected for an edge between the vertices `v0 v1 v2 v3` of the cells around it (listed
counterclockwise about the positive axis): counterclockwise if the lesser endpoint is solid, clockwise otherwise. -/
def quadTriangles (v0 v1 v2 v3 : Nat) (lesserSolid : Bool) : List (Nat × Nat × Nat) :=
  if lesserSolid then [(v0, v1, v3), (v1, v2, v3)] else [(v0, v3, v1), (v1, v3, v2)]

/-- Triangles expected for a stored edge, vertices being numbered as in `cells`. -/
def edgeQuad (h : Int) (cells : List IVec3) (e : GridEdge K) : List (Nat × Nat × Nat) :=
  if (cellsAroundEdge e.axis e.lesser).all (fun c => decide (∀ v ∈ cellVertices c, InCube h v)) then
    match (cellsAroundEdge e.axis e.lesser).map cells.idxOf with
    | [v0, v1, v2, v3] => quadTriangles v0 v1 v2 v3 e.lesserSolid
    | _ => []
  else []

end

section
variable {K : Type} [Add K] [Sub K] [Mul K] [Div K] [Neg K] [Zero K] [One K] [OfNat K 2] [OfScientific K] [NatCast K] [IntCast K]
  [Fabs K] [Elem K] [LinearOrder K]

/-- Tunable options of two solvers agree. -/
def SameOptions {d : Nat} (q q' : Qef K d) : Prop :=
  q'.pinvTolerance = q.pinvTolerance ∧ q'.jacobiTolerance = q.jacobiTolerance ∧
  q'.maxJacobiIters = q.maxJacobiIters ∧ q'.fast = q.fast

/-- `std::sort` by cell index: a permutation, sorted. -/
def IsSort (srt : List (DcEntry K) → List (DcEntry K)) : Prop :=
  ∀ l, (srt l).Perm l ∧ (srt l).Pairwise (fun a b => a.cellIndex ≤ b.cellIndex)


/-- The call that adds the plane of a stored edge: through its surface point, orthogonal to its surface normal. -/
def planeOp (eps : K) (e : GridEdge K) : QefOp K 3 :=
  .addPlane e.surfacePoint.toVecN (edgeNormal eps e.gradient).toVecN

/-- Lower corner of a cell. -/
def cellLo (P : IVec3) : VecN K 3 := ![(P.x : K), P.y, P.z]

/-- Upper corner of a cell. -/
def cellHi (P : IVec3) : VecN K 3 := ![(P.x : K) + 1, (P.y : K) + 1, (P.z : K) + 1]

/-- `v` is an acceptable mesh vertex for the cell `P`: it lies in the closed cell; its material is non-`Empty` and
occurs at a corner of the cell, at more than half of the solid ones if there is such a material (it is the one the fast filter
selects from the corner materials); its position is the solution of the minimisation problem made of exactly the planes of
the stored edges of the cell (in some order), with the given options; its normal is the normalised sum of their normals. -/
structure DualVertex (env : DcEnv K) (g : Grid K) (options : Qef K 3) (P : IVec3) (v : MeshVertex K) : Prop where
  inside_x : (P.x : K) ≤ v.position.x ∧ v.position.x ≤ (P.x : K) + 1
  inside_y : (P.y : K) ≤ v.position.y ∧ v.position.y ≤ (P.y : K) + 1
  inside_z : (P.z : K) ≤ v.position.z ∧ v.position.z ≤ (P.z : K) + 1
  solid : v.material ≠ .Empty
  corner : ∃ c ∈ cellVertices P, g.at c = some v.material
  majority : ∀ m, m ≠ .Empty → (cellVertices P).countP (fun c => solidAt g c) <
    2 * (cellVertices P).countP (fun c => decide (g.at c = some m)) → v.material = m
  voted : ∃ ms, (cellVertices P).mapM g.at = some ms ∧ v.material = (FilterFast.new.addMany ms).select
  solution : ∃ (es : List (GridEdge K)) (q0 q1 q2 : Qef K 3) (x : VecN K 3), es.Nodup ∧
    (∀ e, e ∈ es ↔ e ∈ edgeList g ∧ EdgeOfCell P e.axis e.lesser) ∧ SameOptions options q0 ∧
    runOps qef3Rows 30 env.tiny q0 (.reset :: es.map (planeOp env.eps)) = some q1 ∧
    q1.solve qef3Rows env.tiny (cellLo P) (cellHi P) = some (q2, x) ∧ v.position.toVecN = x ∧
    v.normal = env.normalize ((es.map fun e => edgeNormal env.eps e.gradient).foldl Vec3.add ⟨0, 0, 0⟩)

end

end Isomesh.Spec
