import Verif.Spec.Hausdorff
import Verif.Spec.MdcOctree

/-! Specification for C93: worlds meshed piece by piece with the dual methods. -/

namespace Isomesh.Spec

/-- The points of all triangles of a mesh, in the world. -/
def placedPoints (r : PlacedMesh ℝ) : Set (Fin 3 → ℝ) :=
  {x | ∃ t ∈ triangles r.mesh.indices, OnMeshTriangle r t (point x)}

/-- A mesh of a cube of a world lattice: `corner` is the lowest cell of the cube, `side` the number of cells along each axis. -/
structure Patch where
  corner : IVec3
  side : Int
  mesh : PlacedMesh ℝ

/-- The cell of the world lattice belongs to the patch. -/
def Patch.Has (k : Patch) (P : IVec3) : Prop := ∀ a : Axis, k.corner.get a ≤ P.get a ∧ P.get a < k.corner.get a + k.side

/-- The patch is the mesh made by uniform dual contouring of a grid of the world's step centred at a lattice point of the world. -/
def Patch.Uniform (f : ScalarField ℝ) (origin : Vec3 ℝ) (step : ℝ) (k : Patch) : Prop :=
  ∃ (sv : ZeroFinder ℝ) (g g' : Grid ℝ) (env : DcEnv ℝ) (solver q : Qef ℝ 3) (at_ : IVec3), g.Reachable ∧ g.step = step ∧
    g.globalPos = worldPos origin step at_ ∧ g.fill f sv = some g' ∧ IsSort env.srt ∧ 0 < solver.pinvTolerance ∧
    dualContouring env g' solver = some (q, k.mesh) ∧
    (∀ a, k.corner.get a = at_.get a - g.maxCoord) ∧ k.side = 2 * g.maxCoord

/-- The patch is the mesh made by a DC octree without simplification, over a grid of the world's step centred at a lattice point of the world. -/
def Patch.DcOctree (f : ScalarField ℝ) (origin : Vec3 ℝ) (step : ℝ) (k : Patch) : Prop :=
  ∃ (sv : ZeroFinder ℝ) (g g' : Grid ℝ) (env : DcEnv ℝ) (solver q : Qef ℝ 3) (ε : ℝ) (o o' o'' : Isomesh.DcOctree ℝ) (at_ : IVec3), g.Reachable ∧
    g.step = step ∧ g.globalPos = worldPos origin step at_ ∧ g.fill f sv = some g' ∧ 0 < solver.pinvTolerance ∧
    o.globalPos = g.globalPos ∧ o.globalScale = g.step ∧ CubeIn g'.maxCoord (rootCube o.level) ∧
    o.build env g' solver ε false = some (q, o') ∧ o'.contour = some (k.mesh, o'') ∧
    (∀ a, k.corner.get a = at_.get a + (rootCube o.level).lo.get a) ∧ k.side = (rootCube o.level).side

/-- The patch is the mesh made by an MDC octree for a negative error bound, after any earlier `contour` calls, over a grid of the world's step centred
at a lattice point of the world. -/
def Patch.MdcOctree (f : ScalarField ℝ) (origin : Vec3 ℝ) (step : ℝ) (k : Patch) : Prop :=
  ∃ (sv : ZeroFinder ℝ) (g g' : Grid ℝ) (env : DcEnv ℝ) (solver q : Qef ℝ 3) (o o' o1 o2 : Isomesh.MdcOctree ℝ) (bounds : List ℝ) (ε : ℝ)
    (at_ : IVec3), g.Reachable ∧ g.step = step ∧ g.globalPos = worldPos origin step at_ ∧ g.fill f sv = some g' ∧
    o.globalPos = g.globalPos ∧ o.globalScale = g.step ∧ CubeIn g'.maxCoord (rootCube o.level) ∧
    4 * crossingCells g' (rootCube o.level) + 3 < 2 ^ 32 ∧ o.build env g' solver = some (q, o') ∧ contourAll o' bounds = some o1 ∧
    ε < 0 ∧ o1.contour ε = some (k.mesh, o2) ∧
    (∀ a, k.corner.get a = at_.get a + (rootCube o.level).lo.get a) ∧ k.side = (rootCube o.level).side

/-- The patch is made by one of the dual methods without simplification. -/
def Patch.Computed (f : ScalarField ℝ) (origin : Vec3 ℝ) (step : ℝ) (k : Patch) : Prop :=
  k.Uniform f origin step ∨ k.DcOctree f origin step ∨ k.MdcOctree f origin step

/-- The points of the meshes of all patches. -/
def patchPoints (ks : List Patch) : Set (Fin 3 → ℝ) := {x | ∃ k ∈ ks, x ∈ placedPoints k.mesh}

/-- The patches cover the body: for each point of the body there is a patch that contains all the cells around it. -/
def PatchesCover (f : ScalarField ℝ) (origin : Vec3 ℝ) (step : ℝ) (ks : List Patch) : Prop :=
  ∀ q : Vec3 ℝ, f.value q ≤ 0 → ∃ k ∈ ks, ∀ P, InClosedCell origin step P q → k.Has P

/-- Within the distance `ρ` from `z` there are the centre of a cube of half side `s` in the body and the centre of one outside. -/
def ThickAt (f : ScalarField ℝ) (s ρ : ℝ) (z : Fin 3 → ℝ) : Prop :=
  ∃ a b, dist a z ≤ ρ ∧ dist b z ≤ ρ ∧ (∀ x, dist x a ≤ s → x ∈ Body f) ∧ ∀ x, dist x b ≤ s → x ∉ Body f

end Isomesh.Spec
