import Verif.Model.EdgeStorage
import Verif.Spec.Geometry

/-! Specification of what a filled grid should contain, in terms of the field, the solver and the position
function only. -/

namespace Isomesh.Spec

variable {K : Type} [Add K] [Sub K] [Mul K] [Div K] [Zero K] [IntCast K] [LE K] [LT K] [DecidableLE K] [DecidableLT K]

/-- Global position of lattice point `p` of a grid at `origin` with step `step`. -/
def worldPos (origin : Vec3 K) (step : K) (p : IVec3) : Vec3 K :=
  ⟨(p.x : K) * step + origin.x, (p.y : K) * step + origin.y, (p.z : K) * step + origin.z⟩

/-- The far endpoint of the unit edge at `p` along `D`. -/
def edgeEnd (D : Axis) (p : IVec3) : IVec3 :=
  match D with
  | .X => shift p 1 0 0
  | .Y => shift p 0 1 0
  | .Z => shift p 0 0 1

/-- Material a vertex should have: `Empty` if the value is positive, what the field says otherwise. -/
def vertexMaterial (f : ScalarField K) (q : Vec3 K) : Material :=
  if f.value q > 0 then .Empty else f.material q (f.value q)

/-- The surface crosses the edge: exactly one endpoint has a non-positive value. -/
def Crosses (f : ScalarField K) (pos : IVec3 → Vec3 K) (D : Axis) (p : IVec3) : Prop :=
  ¬ (f.value (pos p) ≤ 0 ↔ f.value (pos (edgeEnd D p)) ≤ 0)

/-- Coordinate of the crossing point along `D`, as computed by the solver from the segment between the endpoints and
the field values there. -/
def crossingCoord (f : ScalarField K) (solver : ZeroFinder K) (pos : IVec3 → Vec3 K) (D : Axis) (p : IVec3) : K :=
  let a := pos p
  let b := pos (edgeEnd D p)
  match D with
  | .X => solver.findAlongX a.x a.y a.z b.x (f.value a) (f.value b) f
  | .Y => solver.findAlongY a.x a.y a.z b.y (f.value a) (f.value b) f
  | .Z => solver.findAlongZ a.x a.y a.z b.z (f.value a) (f.value b) f

/-- The record that should be stored for a crossing edge. -/
def edgeRecord (f : ScalarField K) (solver : ZeroFinder K) (pos : IVec3 → Vec3 K) (step : K) (D : Axis) (p : IVec3) :
    GridEdge K :=
  let c := crossingCoord f solver pos D p
  { lesser := p
    gradient := f.grad ((pos p).set D c)
    offset := (c - (pos p).get D) / step
    axis := D
    lesserSolid := decide (f.value (pos p) ≤ 0)
    material := if f.value (pos p) ≤ 0 then vertexMaterial f (pos p) else vertexMaterial f (pos (edgeEnd D p)) }

/-! With rounded arithmetic repeated addition of the step and multiplication by it differ, so the positions at which the
field is sampled differ from those at which the zeros are searched. -/

/-- `a` with `step` added `n` times. -/
def stepped (a step : K) : Nat → K
  | 0 => a
  | n + 1 => stepped a step n + step

/-- Position at which the field is sampled for the lattice point `p` of the cube `[-h, h]^3`. -/
def samplePos (origin : Vec3 K) (step : K) (h : Int) (p : IVec3) : Vec3 K :=
  let low := worldPos origin step ⟨-h, -h, -h⟩
  ⟨stepped low.x step (p.x + h).toNat, stepped low.y step (p.y + h).toNat, stepped low.z step (p.z + h).toNat⟩

/-- Coordinate of the crossing point when the field was sampled at the positions `sample`, while the segment is the one from
`pos p` to the point that lies `step` further. -/
def sampledCoord (f : ScalarField K) (solver : ZeroFinder K) (sample pos : IVec3 → Vec3 K) (step : K) (D : Axis) (p : IVec3) : K :=
  let a := pos p
  let v := f.value (sample p)
  let w := f.value (sample (edgeEnd D p))
  match D with
  | .X => solver.findAlongX a.x a.y a.z (a.x + step) v w f
  | .Y => solver.findAlongY a.x a.y a.z (a.y + step) v w f
  | .Z => solver.findAlongZ a.x a.y a.z (a.z + step) v w f

/-- The record that should be stored for an edge whose endpoints were sampled at the positions `sample`. -/
def sampledRecord (f : ScalarField K) (solver : ZeroFinder K) (sample pos : IVec3 → Vec3 K) (step : K) (D : Axis) (p : IVec3) :
    GridEdge K :=
  let c := sampledCoord f solver sample pos step D p
  { lesser := p
    gradient := f.grad ((pos p).set D c)
    offset := (c - (pos p).get D) / step
    axis := D
    lesserSolid := decide (f.value (sample p) ≤ 0)
    material := if f.value (sample p) ≤ 0 then vertexMaterial f (sample p) else vertexMaterial f (sample (edgeEnd D p)) }

end Isomesh.Spec
