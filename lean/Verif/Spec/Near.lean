import Verif.Spec.Corner

/-! Specification vocabulary for nearly optimal vertices. -/

namespace Isomesh.Spec

noncomputable section

variable {d : Nat}

/-- `c` is a point with the least value of `F`. -/
def LeastAt (F : VecN ℝ d → ℝ) (c : VecN ℝ d) : Prop := ∀ y, F c ≤ F y

/-- Half the sum of the second differences of `F` along the axes (for a sum of squared distances to planes this is the sum of the squared lengths
of the normals). -/
def errWeight (F : VecN ℝ d → ℝ) : ℝ := ∑ i, ((F (Pi.single i 1) + F (-Pi.single i 1)) / 2 - F 0)

/-- Excess allowed for by a threshold `π` of small eigenvalues and a remainder `ρ` (sum of squares) off the diagonal. -/
def gapFactor (π ρ : ℝ) : ℝ := ρ / π + π + Real.sqrt ρ * (ρ / π ^ 2 + 1)

/-- The error function `F` is nearly least at `x`: the excess over the least value is at most a multiple of the squared distance between the point
`p` and any point with the least value. -/
def NearlyLeast (q : Qef ℝ d) (F : VecN ℝ d → ℝ) (p x : VecN ℝ d) : Prop :=
  ∀ c, LeastAt F c → F x ≤ F c + gapFactor q.pinvTolerance (offDiagBound d q.jacobiTolerance q.maxJacobiIters.toNat (errWeight F)) * sqDist p c

/-- No compression meets a tiny column while the planes of the edges are added after a reset and solved, in any order. -/
def CleanEdges (eps tiny : ℝ) (es : List (GridEdge ℝ)) : Prop :=
  ∀ (es' : List (GridEdge ℝ)) (q0 : Qef ℝ 3), es'.Perm es →
    CleanRun qef3Rows 30 tiny q0 (.reset :: es'.map (planeOp eps)) ∧
    ∀ q1, runOps qef3Rows 30 tiny q0 (.reset :: es'.map (planeOp eps)) = some q1 → CompressClean tiny q1

/-- The vertex `x` of the cell `P` is on the boundary of the cell, or the sum of the squared distances to the planes of the edges is nearly least
there, relative to the mean of the surface points. -/
def NearVertex (env : DcEnv ℝ) (options : Qef ℝ 3) (P : IVec3) (es : List (GridEdge ℝ)) (x : VecN ℝ 3) : Prop :=
  (∃ i, x i = cellLo P i ∨ x i = cellHi P i) ∨
  NearlyLeast options (planesErr (edgePlanes env.eps es)) (meanPoint (edgePlanes env.eps es)) x

end

end Isomesh.Spec
