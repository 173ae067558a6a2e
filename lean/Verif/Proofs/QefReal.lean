import Verif.Spec.Qef
import Mathlib.Algebra.BigOperators.Fin

/-! The solver model in exact arithmetic: sums, dot products and matrix products are the mathematical ones. -/

namespace Isomesh

@[simp] theorem sumL_real (l : List ℝ) : sumL l = l.sum := by
  rw [List.sum_eq_foldl]; rfl

@[simp] theorem dotN_real {n : Nat} (u v : Fin n → ℝ) : dotN u v = dotProduct u v := by
  rw [dotN, sumL_real, dotProduct, Fin.sum_univ_def]

@[simp] theorem mulM_real {n : Nat} (A B : Matrix (Fin n) (Fin n) ℝ) : mulM A B = A * B := by
  ext r c; rw [mulM, dotN_real, Matrix.mul_apply']

@[simp] theorem mulV_real {n : Nat} (A : Matrix (Fin n) (Fin n) ℝ) (v : Fin n → ℝ) : mulV A v = A.mulVec v := by
  funext r; rw [mulV, dotN_real]; rfl

/-- The diagonal matrix of inverse eigenvalues. -/
theorem pinvDiag_of {d : Nat} (tol : ℝ) (e : VecN ℝ d) : Qef.pinvDiag tol e =
    Matrix.of fun r c => if r = c then (if |e r| ≥ tol then 1 / e r else 0) else 0 := rfl

theorem unclamped_real {d : Nat} (q : Qef ℝ (d + 2)) : q.unclamped =
    (let Mm := q.leftMat
    let ATA := Mm.transpose * Mm
    let eE := jacobi (fun c r => ATA r c) q.jacobiTolerance q.maxJacobiIters q.fast
    let E : Matrix (Fin (d + 2)) (Fin (d + 2)) ℝ := Matrix.of fun r c => eE.2 c r
    let ATAp := E * Qef.pinvDiag q.pinvTolerance eE.1 * E.transpose
    let p : VecN ℝ (d + 2) := fun i => q.pointsSum i / q.pointsCount
    let b : VecN ℝ (d + 2) := fun r => q.A (Fin.last (d + 2)) r
    ATAp.mulVec (Mm.transpose.mulVec b - ATA.mulVec p) + p) := by
  unfold Qef.unclamped
  simp only [mulM_real, mulV_real]

theorem solve_real {d : Nat} (M : Nat) (tiny : ℝ) (q : Qef ℝ (d + 2)) (lo hi : VecN ℝ (d + 2)) : q.solve M tiny lo hi = (do
    let q ← q.compressMatrix M tiny
    let Mm := q.leftMat
    let ATA := Mm.transpose * Mm
    let e := (jacobi (fun c r => ATA r c) q.jacobiTolerance q.maxJacobiIters q.fast).1
    if q.pointsCount = 0 ∨ ∃ i, |e i| ≥ q.pinvTolerance ∧ e i = 0 then none
    else some ({ q with featureDim := Qef.featureDimOf q.pinvTolerance e }, Qef.clampV q.unclamped lo hi)) := by
  unfold Qef.solve
  simp only [mulM_real]
  rfl

end Isomesh
