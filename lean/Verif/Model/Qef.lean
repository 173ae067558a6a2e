import Mathlib.Data.Matrix.Mul
import Verif.Arith

/-! Model of the QEF solvers (src/qef/householder.hpp, src/qef/jacobi.hpp, src/qef/qef_solver_3d.cpp,
src/qef/qef_solver_4d.cpp and their headers).

The two solver classes have the same text up to the dimension; they are modelled once, for dimension `d` and row buffer
size `M`; `QefSolver3D` is `d = 3`, `M = 8` and `QefSolver4D` is `d = 4`, `M = 16` (`qef3Rows`, `qef4Rows`).
Simplifications: `float` is any type `K` with the operations used; sums of products are taken from left to right; the values of an out-of-range buffer row are never used because every access is
checked (`none` = access out of bounds or division by zero). -/

namespace Isomesh

section
variable {K : Type} [Add K] [Sub K] [Mul K] [Div K] [Neg K] [Zero K] [One K] [OfNat K 2] [OfScientific K] [NatCast K] [IntCast K]
  [Fabs K] [Elem K] [LinearOrder K]

/-- `kMaxRows` of the 3D solver (qef_solver_3d.hpp:92). -/
def qef3Rows : Nat := 8

/-- `kMaxRows` of the 4D solver (qef_solver_4d.hpp:92). -/
def qef4Rows : Nat := 16

/-- A vector with `d` components (`glm::vec3`, `glm::vec4`). -/
abbrev VecN (K : Type) (d : Nat) := Fin d → K

/-- `A[d + 1][M]`: column, row (qef_solver_3d.hpp:95, qef_solver_4d.hpp:95). -/
abbrev QMat (K : Type) (d : Nat) := Fin (d + 1) → Nat → K

/-- The sum of a list, from left to right. -/
def sumL (l : List K) : K := l.foldl (· + ·) 0

/-- `glm::dot`. -/
def dotN {n : Nat} (u v : Fin n → K) : K := sumL ((List.finRange n).map fun i => u i * v i)

/-- Product of matrices (row, column). -/
def mulM {n : Nat} (A B : Matrix (Fin n) (Fin n) K) : Matrix (Fin n) (Fin n) K := fun r c => dotN (A r) (fun k => B k c)

/-- Product of a matrix (row, column) and a vector. -/
def mulV {n : Nat} (A : Matrix (Fin n) (Fin n) K) (v : Fin n → K) : Fin n → K := fun r => dotN (A r) v

/-! ### Householder -/

/-- Squared norm of the `i`-th subcolumn (householder.hpp:26-28): sum over rows `i ≤ j < used`. -/
def hhNorm {d : Nat} (used : Nat) (A : QMat K d) (i : Fin (d + 1)) : K :=
  sumL ((List.range' i (used - i)).map fun j => A i j * A i j)

/-- Reflection vector `v` (householder.hpp:30-43); `tiny` is `numeric_limits<float>::min ()`. -/
def hhVec {d : Nat} (tiny : K) (used : Nat) (A : QMat K d) (i : Fin (d + 1)) : Nat → K := fun j =>
  if hhNorm used A i < tiny then (if j = i then 1 else 0)
  else
    let mult := 1 / Elem.sqrt (hhNorm used A i)
    let v := if (i : Nat) ≤ j ∧ j < used then A i j * mult else 0
    if j = i then (if v ≥ 0 then v + 1 else v - 1) else v

/-- `invgamma` (householder.hpp:31-44). -/
def hhInvGamma {d : Nat} (tiny : K) (used : Nat) (A : QMat K d) (i : Fin (d + 1)) : K :=
  if hhNorm used A i < tiny then 2 else 1 / fabs (hhVec tiny used A i i)

/-- One pass of the outer loop: reflects columns `i ≤ j` (householder.hpp:24-54). -/
def hhStep {d : Nat} (tiny : K) (used : Nat) (A : QMat K d) (i : Fin (d + 1)) : QMat K d :=
  let v := hhVec tiny used A i
  let g := hhInvGamma tiny used A i
  fun j k =>
    if i ≤ j ∧ (i : Nat) ≤ k ∧ k < used then
      A j k - sumL ((List.range' i (used - i)).map fun k' => A j k' * v k') * g * v k
    else A j k

/-- `householder<float, d + 1, M> (A, used)` (householder.hpp:18-55).  `none`: a row index reaches `M`. -/
def householder {d : Nat} (M : Nat) (tiny : K) (used : Nat) (A : QMat K d) : Option (QMat K d) :=
  if used ≤ M ∧ d + 1 ≤ M then some ((List.finRange (d + 1)).foldl (hhStep tiny used) A) else none

/-! ### Jacobi -/

/-- The value of `tan_twophi`: a float division by zero with non-zero dividend gives an infinity. -/
inductive TanVal (K : Type) where
  | fin (x : K)
  | inf (positive : Bool)

/-- `(aij + aij) / (aii - ajj)` (jacobi.hpp:129) for `aij ≠ 0`. -/
def tanTwoPhi (aii ajj aij : K) : TanVal K :=
  if aii - ajj = 0 then .inf (decide (0 < aij + aij)) else .fin ((aij + aij) / (aii - ajj))

/-- `calcSinCosFast` (jacobi.hpp:12-19): `(s, c)`; `hypot (1, ±inf) = inf`, `0.5 / inf = 0`. -/
def calcSinCosFast : TanVal K → K × K
  | .fin x =>
    let inv := 0.5 / Elem.sqrt (1 * 1 + x * x)
    (if x < 0 then -Elem.sqrt (0.5 - inv) else Elem.sqrt (0.5 - inv), Elem.sqrt (0.5 + inv))
  | .inf pos =>
    let inv : K := 0
    (if pos then Elem.sqrt (0.5 - inv) else -Elem.sqrt (0.5 - inv), Elem.sqrt (0.5 + inv))

/-- `calcSinCosAccurate` (jacobi.hpp:21-26): `(s, c)`; `atan (±inf) = ±π/2`. -/
def calcSinCosAccurate (t : TanVal K) : K × K :=
  let at_ : K := match t with
    | .fin x => Elem.atan x
    | .inf pos => if pos then Elem.halfPi else -Elem.halfPi
  let phi := 0.5 * at_
  (Elem.sin phi, Elem.cos phi)

/-- A `glm::mat` value: `A c r` is `A[c][r]`. -/
abbrev GMat (K : Type) (d : Nat) := Fin d → Fin d → K

/-- Assignment to one element `A[c][r] = x`. -/
def GMat.set {d : Nat} (A : GMat K d) (c r : Fin d) (x : K) : GMat K d :=
  fun c' r' => if c' = c ∧ r' = r then x else A c' r'

/-- The macro `jacobiRotate (i, j, k)` (jacobi.hpp:30-35, 60-65). -/
def jacobiRotate {d : Nat} (c s : K) (i j : Fin d) (A : GMat K d) (k : Fin d) : GMat K d :=
  let aik := A (min i k) (max i k)
  let ajk := A (min j k) (max j k)
  (A.set (min i k) (max i k) (c * aik + s * ajk)).set (min j k) (max j k) (-s * aik + c * ajk)

/-- The body of the last loop of `rotate` (jacobi.hpp:51-56, 96-101). -/
def rotateCol {d : Nat} (c s : K) (i j : Fin d) (H : GMat K d) (k : Fin d) : GMat K d :=
  let hik := H i k
  let hjk := H j k
  (H.set i k (c * hik + s * hjk)).set j k (-s * hik + c * hjk)

/-- `rotate` (jacobi.hpp:28-57 for 3x3, 59-103 for 4x4): the `jacobiRotate` calls are those for every `k` other than
`i`, `j`, in increasing order; returns the new `A` and `H`. -/
def jrotate {d : Nat} (A H : GMat K d) (c s : K) (i j : Fin d) : GMat K d × GMat K d :=
  let A := ((List.finRange d).filter fun k => k ≠ i ∧ k ≠ j).foldl (jacobiRotate c s i j) A
  let aii := A i i
  let ajj := A j j
  let aij := A i j
  let A := A.set i i (c * c * aii + s * s * ajj + c * s * (aij + aij))
  let A := A.set j j (s * s * aii + c * c * ajj - c * s * (aij + aij))
  let A := A.set i j 0
  (A, (List.finRange d).foldl (rotateCol c s i j) H)

/-- State of the pivot search: `max_el`, `max_i`, `max_j`. -/
structure Pivot (K : Type) (d : Nat) where
  el : K
  i : Fin d
  j : Fin d

/-- Inner step of the pivot search (jacobi.hpp:117-122). -/
def pivotStep {d : Nat} (A : GMat K d) (p : Pivot K d) (ij : Fin d × Fin d) : Pivot K d :=
  if fabs (A ij.1 ij.2) > p.el then ⟨fabs (A ij.1 ij.2), ij.1, ij.2⟩ else p

/-- The index pairs `i < j` in the order of the two loops (jacobi.hpp:115-116). -/
def upperPairs (d : Nat) : List (Fin d × Fin d) :=
  (List.finRange d).flatMap fun i => ((List.finRange d).filter fun j => i < j).map fun j => (i, j)

/-- The pivot search (jacobi.hpp:112-124), for `d ≥ 2`. -/
def findPivot {d : Nat} (A : GMat K (d + 2)) : Pivot K (d + 2) :=
  (upperPairs (d + 2)).foldl (pivotStep A) ⟨fabs (A 0 1), 0, 1⟩

/-- The loop of `jacobi` with `n` iterations left (jacobi.hpp:111-136). -/
def jacobiLoop {d : Nat} (tol : K) (fast : Bool) : Nat → GMat K (d + 2) → GMat K (d + 2) → GMat K (d + 2) × GMat K (d + 2)
  | 0, A, E => (A, E)
  | n + 1, A, E =>
    let p := findPivot A
    if p.el ≤ tol then (A, E)
    else
      let t := tanTwoPhi (A p.i p.i) (A p.j p.j) (A p.i p.j)
      let sc := if fast then calcSinCosFast t else calcSinCosAccurate t
      let AE := jrotate A E sc.2 sc.1 p.i p.j
      jacobiLoop tol fast n AE.1 AE.2

/-- `jacobi` (jacobi.hpp:107-141): eigenvalues and eigenvectors; the identity matrix is the start value of `E`. -/
def jacobi {d : Nat} (A : GMat K (d + 2)) (tol : K) (maxIters : Int) (fast : Bool) : VecN K (d + 2) × GMat K (d + 2) :=
  let AE := jacobiLoop tol fast maxIters.toNat A (fun c r => if c = r then 1 else 0)
  (fun i => AE.1 i i, AE.2)

/-! ### Solver -/

/-- `QefSolver3D::State`, `QefSolver4D::State` (qef_solver_3d.hpp:26-39, qef_solver_4d.hpp:26-40).  `a r c` for
`r ≤ c` is `a_{r+1,c+1}` (`b_{r+1}` for the last column, `r2` for the last row). -/
structure QState (K : Type) (d : Nat) where
  a : Fin (d + 1) → Fin (d + 1) → K
  mp : VecN K d
  mpCnt : Nat
  dim : Nat

/-- `QefSolver3D`, `QefSolver4D` (qef_solver_3d.hpp:17-124, qef_solver_4d.hpp:17-123). -/
structure Qef (K : Type) (d : Nat) where
  A : QMat K d
  usedRows : Nat
  pointsSum : VecN K d
  pointsCount : Nat
  featureDim : Nat
  pinvTolerance : K
  jacobiTolerance : K
  maxJacobiIters : Int
  fast : Bool

namespace Qef

variable {d : Nat}

/-- `reset` (qef_solver_3d.cpp:25-31, qef_solver_4d.cpp:24-30): keeps the tunable options. -/
def reset (q : Qef K d) : Qef K d :=
  { q with A := fun _ _ => 0, usedRows := 0, pointsSum := fun _ => 0, pointsCount := 0, featureDim := 0 }

/-- Default constructor with the default options (qef_solver_3d.cpp:16-18 and hpp:112-118; qef_solver_4d.cpp:15-17
and hpp:112-118). -/
def new3 : Qef K 3 := ⟨fun _ _ => 0, 0, fun _ => 0, 0, 0, 0.01, 0.0025, 15, true⟩

/-- Default constructor of the 4D solver (see `new3`). -/
def new4 : Qef K 4 := ⟨fun _ _ => 0, 0, fun _ => 0, 0, 0, 0.01, 0.0025, 20, true⟩

/-- `setPinvTolerance` (qef_solver_3d.hpp:85, qef_solver_4d.hpp:85). -/
def setPinvTolerance (q : Qef K d) (v : K) : Qef K d := { q with pinvTolerance := max 0 v }

/-- `setJacobiTolerance` (qef_solver_3d.hpp:86, qef_solver_4d.hpp:86). -/
def setJacobiTolerance (q : Qef K d) (v : K) : Qef K d := { q with jacobiTolerance := max 0 v }

/-- `setMaxJacobiIters` (qef_solver_3d.hpp:87, qef_solver_4d.hpp:87). -/
def setMaxJacobiIters (q : Qef K d) (v : Int) : Qef K d := { q with maxJacobiIters := max 1 v }

/-- `useFastFormulas` (qef_solver_3d.hpp:88, qef_solver_4d.hpp:88). -/
def useFastFormulas (q : Qef K d) (v : Bool) : Qef K d := { q with fast := v }

/-- `compressMatrix` (qef_solver_3d.cpp:127-130, qef_solver_4d.cpp:132-135). -/
def compressMatrix (M : Nat) (tiny : K) (q : Qef K d) : Option (Qef K d) := do
  let A ← householder M tiny q.usedRows q.A
  some { q with A := A, usedRows := d + 1 }

/-- Writes one row of the buffer; `none` if the row does not exist. -/
def writeRow (M : Nat) (A : QMat K d) (id : Nat) (row : Fin (d + 1) → K) : Option (QMat K d) :=
  if id < M then some (fun c r => if r = id then row c else A c r) else none

/-- Mass point part of `merge` (qef_solver_3d.cpp:34-45, qef_solver_4d.cpp:33-44). -/
def mergeMass (q : Qef K d) (data : QState K d) : Qef K d :=
  if data.dim > q.featureDim then
    { q with featureDim := data.dim, pointsSum := data.mp, pointsCount := data.mpCnt }
  else if data.dim = q.featureDim then
    { q with pointsSum := q.pointsSum + data.mp, pointsCount := u32 (q.pointsCount + data.mpCnt) }
  else q

/-- Compression before a merge if fewer than `d + 1` rows are free (qef_solver_3d.cpp:47-48, qef_solver_4d.cpp:46-47). -/
def roomForMerge (M : Nat) (tiny : K) (q : Qef K d) : Option (Qef K d) :=
  if (q.usedRows : Int) > (M : Int) - (d + 1 : Nat) then q.compressMatrix M tiny else some q

/-- Compression before adding a plane if the buffer is full (qef_solver_3d.cpp:79-80, qef_solver_4d.cpp:82-83). -/
def roomForPlane (M : Nat) (tiny : K) (q : Qef K d) : Option (Qef K d) :=
  if q.usedRows = M then q.compressMatrix M tiny else some q

/-- `merge` (qef_solver_3d.cpp:33-58, qef_solver_4d.cpp:32-59): the `d + 1` rows of the triangular matrix are
appended, with a compression first if there is no room for them. -/
def merge (M : Nat) (tiny : K) (q : Qef K d) (data : QState K d) : Option (Qef K d) := do
  let q := q.mergeMass data
  let q ← q.roomForMerge M tiny
  let A ← (List.finRange (d + 1)).foldlM (fun (A : QMat K d) (r : Fin (d + 1)) =>
    writeRow M A (q.usedRows + r) (fun c => if c < r then 0 else data.a r c)) q.A
  some { q with A := A, usedRows := q.usedRows + (d + 1) }

/-- `state` (qef_solver_3d.cpp:60-76, qef_solver_4d.cpp:61-79); `none` if the assertion on the point count fails
(`cntBits` is 30 and 29). -/
def state (M : Nat) (cntBits : Nat) (tiny : K) (q : Qef K d) : Option (Qef K d × QState K d) := do
  let q ← q.compressMatrix M tiny
  if q.pointsCount < 2 ^ cntBits then
    some (q, ⟨fun r c => if c < r then 0 else q.A c r, q.pointsSum, q.pointsCount, q.featureDim⟩)
  else none

/-- `addPlane` (qef_solver_3d.cpp:78-89, qef_solver_4d.cpp:81-93). -/
def addPlane (M : Nat) (tiny : K) (q : Qef K d) (point normal : VecN K d) : Option (Qef K d) := do
  let q ← q.roomForPlane M tiny
  let A ← writeRow M q.A q.usedRows (Fin.snoc (α := fun _ => K) normal (dotN normal point))
  some { q with A := A, usedRows := q.usedRows + 1, pointsSum := q.pointsSum + point,
                pointsCount := u32 (q.pointsCount + 1) }

/-- `eval` (qef_solver_3d.cpp:91-99, qef_solver_4d.cpp:95-103); `none` if a used row is outside the buffer. -/
def eval (M : Nat) (q : Qef K d) (point : VecN K d) : Option K :=
  if q.usedRows ≤ M then
    some ((List.range q.usedRows).foldl (fun (error : K) (i : Nat) =>
      let diff := dotN (fun c : Fin d => q.A c.castSucc i) point - q.A (Fin.last d) i
      error + diff * diff) 0)
  else none

/-- `M` of `solve`: columns of the compressed matrix (qef_solver_3d.cpp:105-108): `M[c][r] = A[c][r]`; as a
mathematical matrix (row, column). -/
def leftMat (q : Qef K d) : Matrix (Fin d) (Fin d) K := fun r c => q.A c.castSucc r

/-- `glm::clamp` = `min (max (x, lo), hi)` componentwise. -/
def clampV (x lo hi : VecN K d) : VecN K d := fun i => min (max (x i) (lo i)) (hi i)

/-- `sigma` (qef_solver_3d.cpp:114-120). -/
def pinvDiag (tol : K) (e : VecN K d) : Matrix (Fin d) (Fin d) K :=
  Matrix.of fun r c => if r = c then (if fabs (e r) ≥ tol then 1 / e r else 0) else 0

/-- `m_featureDim` after the loop (qef_solver_3d.cpp:115-120): the dimension minus the number of truncated values. -/
def featureDimOf (tol : K) (e : VecN K d) : Nat :=
  (List.finRange d).foldl (fun n i => if fabs (e i) ≥ tol then n else n - 1) d

/-- The point computed by `solve` before clamping (qef_solver_3d.cpp:104-124, qef_solver_4d.cpp:109-129) from a
compressed solver; glm matrix `E[c][r]` is the mathematical entry `(r, c)`. -/
def unclamped {d : Nat} (q : Qef K (d + 2)) : VecN K (d + 2) :=
  let Mm := q.leftMat
  let ATA := mulM Mm.transpose Mm
  let eE := jacobi (fun c r => ATA r c) q.jacobiTolerance q.maxJacobiIters q.fast
  let E : Matrix (Fin (d + 2)) (Fin (d + 2)) K := Matrix.of fun r c => eE.2 c r
  let ATAp := mulM (mulM E (pinvDiag q.pinvTolerance eE.1)) E.transpose
  let p : VecN K (d + 2) := fun i => q.pointsSum i / q.pointsCount
  let b : VecN K (d + 2) := fun r => q.A (Fin.last (d + 2)) r
  mulV ATAp (mulV Mm.transpose b - mulV ATA p) + p

/-- `solve` (qef_solver_3d.cpp:101-125, qef_solver_4d.cpp:105-130).  `none`: a division by zero, namely no points
(`0 / 0`) or a zero eigenvalue that is not truncated (`1 / 0`, only with zero tolerance). -/
def solve {d : Nat} (M : Nat) (tiny : K) (q : Qef K (d + 2)) (lo hi : VecN K (d + 2)) :
    Option (Qef K (d + 2) × VecN K (d + 2)) := do
  let q ← q.compressMatrix M tiny
  let Mm := q.leftMat
  let ATA := mulM Mm.transpose Mm
  let e := (jacobi (fun c r => ATA r c) q.jacobiTolerance q.maxJacobiIters q.fast).1
  if q.pointsCount = 0 ∨ ∃ i, fabs (e i) ≥ q.pinvTolerance ∧ e i = 0 then none
  else some ({ q with featureDim := featureDimOf q.pinvTolerance e }, clampV q.unclamped lo hi)

end Qef
end
end Isomesh
