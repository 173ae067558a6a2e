import Verif.Model.Qef

/-! Specification vocabulary for the QEF solvers: error functions and call histories. -/

namespace Isomesh.Spec

noncomputable section

/-- Squared distance of `p` to the plane through `point` with normal `normal` (unit length not needed). -/
def planeErr {d : Nat} (point normal p : VecN ℝ d) : ℝ := (∑ i, normal i * (p i - point i)) ^ 2

/-- Error function described by a stored state: triangular system `a p = b` with residual `r2`. -/
def stateErr {d : Nat} (s : QState ℝ d) (p : VecN ℝ d) : ℝ :=
  ∑ r : Fin (d + 1), ((∑ c : Fin d, (if c.castSucc < r then 0 else s.a r c.castSucc) * p c) - s.a r (Fin.last d)) ^ 2

section
variable {K : Type} [Add K] [Sub K] [Mul K] [Div K] [Neg K] [Zero K] [One K] [OfNat K 2] [OfScientific K] [NatCast K] [IntCast K]
  [Fabs K] [Elem K] [LinearOrder K]

/-- A call on a solver. -/
inductive QefOp (K : Type) (d : Nat) where
  | reset
  | addPlane (point normal : VecN K d)
  | merge (s : QState K d)
  | state
  | solve (lo hi : VecN K d)
  | setPinvTolerance (v : K)
  | setJacobiTolerance (v : K)
  | setMaxJacobiIters (v : Int)
  | useFastFormulas (v : Bool)

/-- Effect of a call on the solver (`none`: undefined behaviour or a failed assertion). -/
def QefOp.apply {d : Nat} (M bits : Nat) (tiny : K) (q : Qef K (d + 2)) : QefOp K (d + 2) → Option (Qef K (d + 2))
  | .reset => some q.reset
  | .addPlane pt n => q.addPlane M tiny pt n
  | .merge s => q.merge M tiny s
  | .state => (q.state M bits tiny).map (·.1)
  | .solve lo hi => (q.solve M tiny lo hi).map (·.1)
  | .setPinvTolerance v => some (q.setPinvTolerance v)
  | .setJacobiTolerance v => some (q.setJacobiTolerance v)
  | .setMaxJacobiIters v => some (q.setMaxJacobiIters v)
  | .useFastFormulas v => some (q.useFastFormulas v)

/-- A history of calls. -/
def runOps {d : Nat} (M bits : Nat) (tiny : K) (q : Qef K (d + 2)) (ops : List (QefOp K (d + 2))) :
    Option (Qef K (d + 2)) := ops.foldlM (fun q op => op.apply M bits tiny q) q

end

/-- What a call adds to the expected error at `p`. -/
def QefOp.addTo {d : Nat} (p : VecN ℝ d) (e : ℝ) : QefOp ℝ d → ℝ
  | .reset => 0
  | .addPlane pt n => e + planeErr pt n p
  | .merge s => e + stateErr s p
  | _ => e

/-- Expected error at `p` after a history: contributions of all planes and states added since the last reset. -/
def expectedErr {d : Nat} (ops : List (QefOp ℝ d)) (p : VecN ℝ d) : ℝ := ops.foldl (fun e op => op.addTo p e) 0

/-- No subcolumn met while triangularising has a squared norm strictly between zero and the threshold `tiny` below which
the code treats it as zero. -/
def NoTiny {d : Nat} (tiny : ℝ) (used : Nat) : List (Fin (d + 1)) → QMat ℝ d → Prop
  | [], _ => True
  | i :: l, A => (hhNorm used A i = 0 ∨ tiny ≤ hhNorm used A i) ∧ NoTiny tiny used l (hhStep tiny used A i)

/-- `NoTiny` for the compression of a solver. -/
def CompressClean {d : Nat} (tiny : ℝ) (q : Qef ℝ d) : Prop := NoTiny tiny q.usedRows (List.finRange (d + 1)) q.A

/-- `NoTiny` for the compression made by a call, if it makes one. -/
def QefOp.Clean {d : Nat} (M : Nat) (tiny : ℝ) (q : Qef ℝ d) : QefOp ℝ d → Prop
  | .addPlane _ _ => q.usedRows = M → CompressClean tiny q
  | .merge _ => M - (d + 1) < q.usedRows → CompressClean tiny q
  | .state => CompressClean tiny q
  | .solve _ _ => CompressClean tiny q
  | _ => True

/-- `NoTiny` for all compressions of a history. -/
def CleanRun {d : Nat} (M bits : Nat) (tiny : ℝ) : Qef ℝ (d + 2) → List (QefOp ℝ (d + 2)) → Prop
  | _, [] => True
  | q, op :: ops => op.Clean M tiny q ∧ ∀ q', op.apply M bits tiny q = some q' → CleanRun M bits tiny q' ops

section
variable {K : Type} [Add K] [Sub K] [Mul K] [Div K] [Neg K] [Zero K] [One K] [OfNat K 2] [OfScientific K] [NatCast K] [IntCast K]
  [Fabs K] [Elem K] [LinearOrder K]

/-- Mass data of a solver or state: feature dimension, sum of points, number of points. -/
structure Mass (K : Type) (d : Nat) where
  dim : Nat
  sum : VecN K d
  cnt : Nat

/-- Mass data of a solver. -/
def massOf {d : Nat} (q : Qef K d) : Mass K d := ⟨q.featureDim, q.pointsSum, q.pointsCount⟩

/-- Mass data of a stored state. -/
def stateMass {d : Nat} (s : QState K d) : Mass K d := ⟨s.dim, s.mp, s.mpCnt⟩

/-- Expected combination: only the data of the highest dimension count; equals are added up (the counter is a 32-bit
number). -/
def Mass.combine {d : Nat} (a b : Mass K d) : Mass K d :=
  if a.dim < b.dim then b else if b.dim < a.dim then a else ⟨a.dim, a.sum + b.sum, (a.cnt + b.cnt) % 2 ^ 32⟩

end

end
end Isomesh.Spec
