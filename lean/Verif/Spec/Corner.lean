import Verif.Spec.Qef
import Verif.Spec.DualContouring
import Verif.Spec.MdcOctree

/-! Specification vocabulary for systems of planes that determine a point. -/

namespace Isomesh.Spec

noncomputable section

variable {d : Nat}

/-- Sum of the squared distances of `y` to the planes, given as pairs of a point and a normal. -/
def planesErr (l : List (VecN ℝ d × VecN ℝ d)) (y : VecN ℝ d) : ℝ := (l.map fun pn => planeErr pn.1 pn.2 y).sum

/-- `c` is a point with the least sum of squared distances to the planes. -/
def BestPoint (l : List (VecN ℝ d × VecN ℝ d)) (c : VecN ℝ d) : Prop := ∀ y, planesErr l c ≤ planesErr l y

/-- No direction is nearly parallel to all the planes: the squared components along the normals sum up to at least `m` times the squared length. -/
def SpreadNormals (m : ℝ) (l : List (VecN ℝ d × VecN ℝ d)) : Prop :=
  ∀ u : VecN ℝ d, m * ∑ i, u i ^ 2 ≤ (l.map fun pn => (∑ i, pn.2 i * u i) ^ 2).sum

/-- Mean of the points of the planes. -/
def meanPoint (l : List (VecN ℝ d × VecN ℝ d)) : VecN ℝ d := fun i => (l.map fun pn => pn.1 i).sum / l.length

/-- Sum of the squared lengths of the normals (their number, for unit normals). -/
def normalWeight (l : List (VecN ℝ d × VecN ℝ d)) : ℝ := (l.map fun pn => ∑ i, pn.2 i ^ 2).sum

/-- What the eigenvalue iteration may leave of the elements off the diagonal (sum of squares) of a matrix of dimension `n` with trace at most
`w`: all of them are within the tolerance, or the number of iterations has been used up. -/
def offDiagBound (n : Nat) (tol : ℝ) (iters : Nat) (w : ℝ) : ℝ :=
  max ((n * (n - 1) : ℝ) * tol ^ 2) ((1 - 2 / (n * (n - 1) : ℝ)) ^ iters * w ^ 2)

/-- Squared distance. -/
def sqDist (x y : VecN ℝ d) : ℝ := ∑ i, (x i - y i) ^ 2

/-- The planes of stored edges. -/
def edgePlanes (eps : ℝ) (es : List (GridEdge ℝ)) : List (VecN ℝ 3 × VecN ℝ 3) :=
  es.map fun e => (e.surfacePoint.toVecN, (edgeNormal eps e.gradient).toVecN)

/-- `es` are the stored edges of the cell `P`. -/
def StoredEdges (g : Grid ℝ) (P : IVec3) (es : List (GridEdge ℝ)) : Prop :=
  es.Nodup ∧ ∀ e, e ∈ es ↔ e ∈ edgeList g ∧ EdgeOfCell P e.axis e.lesser

/-- `es` are the stored edges of the cell `P` that belong to the same sheet of the surface in the cell as the edge `x`. -/
def SheetEdges (g : Grid ℝ) (P : IVec3) (x : LEdge) (es : List (GridEdge ℝ)) : Prop :=
  es.Nodup ∧ ∀ e, e ∈ es ↔ e ∈ edgeList g ∧ EdgeOfCell P e.axis e.lesser ∧ SameSheet g P x ⟨e.axis, e.lesser⟩

/-- The planes of the edges `es` (at most eight) determine a point `c` of the cell `P`. -/
structure CornerAt (eps : ℝ) (P : IVec3) (m : ℝ) (es : List (GridEdge ℝ)) (c : VecN ℝ 3) : Prop where
  few : es.length ≤ 8
  spread : SpreadNormals m (edgePlanes eps es)
  best : BestPoint (edgePlanes eps es) c
  inside : ∀ i, cellLo P i ≤ c i ∧ c i ≤ cellHi P i

/-- The options are fit for systems spread by `m`: nothing is taken for zero. -/
structure SharpOptions (env : DcEnv ℝ) (options : Qef ℝ 3) (m : ℝ) : Prop where
  tiny : 0 < env.tiny
  tiny_le : env.tiny ≤ m
  pinv : options.pinvTolerance ≤ m
  eps : 0 ≤ env.eps

/-- The vertex `x` is close to `c`: the squared distance is at most a multiple of that of the mean of the surface points. -/
def CloseTo (options : Qef ℝ 3) (m eps : ℝ) (es : List (GridEdge ℝ)) (x c : VecN ℝ 3) : Prop :=
  sqDist x c ≤ offDiagBound 3 options.jacobiTolerance options.maxJacobiIters.toNat es.length / m ^ 2 * sqDist (meanPoint (edgePlanes eps es)) c

end

end Isomesh.Spec
