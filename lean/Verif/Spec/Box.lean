import Verif.Spec.Flat
import Verif.Spec.MdcOctree

/-! Specification for C96: axis-aligned boxes are reproduced exactly by the dual methods. -/

namespace Isomesh.Spec

/-- The solid is the closed box between `lo` and `hi`; at the points inside the faces the gradient is the outward normal of the face times
a positive number. -/
structure BoxField (f : ScalarField ℝ) (lo hi : Vec3 ℝ) : Prop where
  inside : ∀ q, f.value q ≤ 0 ↔ ∀ a : Axis, lo.get a ≤ q.get a ∧ q.get a ≤ hi.get a
  low : ∀ (D : Axis) (q : Vec3 ℝ), q.get D = lo.get D → (∀ a, a ≠ D → lo.get a < q.get a ∧ q.get a < hi.get a) →
    ∃ s, 0 < s ∧ f.grad q = (⟨0, 0, 0⟩ : Vec3 ℝ).set D (-s)
  high : ∀ (D : Axis) (q : Vec3 ℝ), q.get D = hi.get D → (∀ a, a ≠ D → lo.get a < q.get a ∧ q.get a < hi.get a) →
    ∃ s, 0 < s ∧ f.grad q = (⟨0, 0, 0⟩ : Vec3 ℝ).set D s

/-- The point is on the surface of the box. -/
def OnBox (lo hi q : Vec3 ℝ) : Prop :=
  (∀ a : Axis, lo.get a ≤ q.get a ∧ q.get a ≤ hi.get a) ∧ ∃ a : Axis, q.get a = lo.get a ∨ q.get a = hi.get a

/-- The point is on the mesh. -/
def OnMesh (r : PlacedMesh ℝ) (q : Vec3 ℝ) : Prop := ∃ t ∈ triangles r.mesh.indices, OnMeshTriangle r t q

/-- No face of the box lies in a plane of lattice points. -/
def OffLattice (origin : Vec3 ℝ) (step : ℝ) (lo hi : Vec3 ℝ) : Prop :=
  ∀ (a : Axis) (i : Int), (i : ℝ) * step + origin.get a ≠ lo.get a ∧ (i : ℝ) * step + origin.get a ≠ hi.get a

/-- The box is at least one step thick along each axis. -/
def Thick (step : ℝ) (lo hi : Vec3 ℝ) : Prop := ∀ a : Axis, step ≤ hi.get a - lo.get a

/-- The zero finder finds the faces: going up along an axis the box is entered through the lower face and left through the upper one. -/
def FindsFaces (f : ScalarField ℝ) (sv : ZeroFinder ℝ) (origin : Vec3 ℝ) (step : ℝ) (lo hi : Vec3 ℝ) : Prop :=
  ∀ D p, Crosses f (worldPos origin step) D p →
    crossingCoord f sv (worldPos origin step) D p = if f.value (worldPos origin step p) ≤ 0 then hi.get D else lo.get D

/-- Along every crossed edge the field changes linearly. -/
def LinearOnEdges (f : ScalarField ℝ) (origin : Vec3 ℝ) (step : ℝ) : Prop :=
  ∀ D p, Crosses f (worldPos origin step) D p → ∃ α β : ℝ, ∀ c, (worldPos origin step p).get D ≤ c → c ≤ (worldPos origin step p).get D + step →
    f.value ((worldPos origin step p).set D c) = α + β * c

/-- The box is strictly between the lattice planes `from_` and `to_` of each axis. -/
def BoxBetween (origin : Vec3 ℝ) (step : ℝ) (lo hi : Vec3 ℝ) (from_ to_ : IVec3) : Prop :=
  ∀ a : Axis, (from_.get a : ℝ) * step + origin.get a < lo.get a ∧ hi.get a < (to_.get a : ℝ) * step + origin.get a

/-- Constants of the environment and options of the solver as needed for C96: no distortion of stored normals, thresholds that do not cut
off singular values of at least 1. -/
structure ExactOptions (env : DcEnv ℝ) (solver : Qef ℝ 3) : Prop where
  eps : env.eps = 0
  tiny_pos : 0 < env.tiny
  tiny_le : env.tiny ≤ 1 / 2
  pinv_pos : 0 < solver.pinvTolerance
  pinv_le : solver.pinvTolerance ≤ 1
  jacobi : 0 ≤ solver.jacobiTolerance

end Isomesh.Spec
