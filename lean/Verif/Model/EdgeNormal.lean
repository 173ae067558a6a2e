import Verif.Arith
import Verif.Model.EdgeStorage

/-! Numeric part of `UniformGridEdge` (src/data/grid_edge_storage.cpp): compression of the gradient into two normal
components and a sign bit, and its reconstruction.  The scalars are those of any type with the operations used; `eps` stands for
`std::numeric_limits<double>::epsilon ()`. -/

namespace Isomesh

section
variable {K : Type} [Add K] [Sub K] [Mul K] [Div K] [Neg K] [Zero K] [One K] [OfNat K 2] [OfScientific K] [NatCast K] [IntCast K]
  [Fabs K] [Elem K] [LinearOrder K]

/-- `normalX`, `normalZ`, `normalYSign` (grid_edge_storage.hpp:61-66). -/
structure PackedNormal (K : Type) where
  nx : K
  nz : K
  yNeg : Bool

/-- `glm::length`. -/
def Vec3.length (v : Vec3 K) : K := Elem.sqrt (v.x * v.x + v.y * v.y + v.z * v.z)

/-- Normal part of the constructor (grid_edge_storage.cpp:23-28). -/
def packNormal (eps : K) (gradient : Vec3 K) : PackedNormal K :=
  let gradLen := gradient.length + eps
  ⟨gradient.x / gradLen, gradient.z / gradLen, decide (gradient.y < 0)⟩

/-- `surfaceNormal` (grid_edge_storage.cpp:35-41). -/
def PackedNormal.surfaceNormal (n : PackedNormal K) : Vec3 K :=
  let ySquared := 1 - n.nx * n.nx - n.nz * n.nz
  let normalY := Elem.sqrt (max 0 ySquared)
  let normalY := if n.yNeg then -normalY else normalY
  ⟨n.nx, normalY, n.nz⟩

/-- Normal reported by an edge constructed with the given gradient. -/
def edgeNormal (eps : K) (gradient : Vec3 K) : Vec3 K := (packNormal eps gradient).surfaceNormal

end
end Isomesh
