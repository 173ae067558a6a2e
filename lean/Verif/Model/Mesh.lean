import Verif.Basic

/-! Model of `Mesh` (include/isomesh/data/mesh.hpp, src/data/mesh.cpp), of the PLY exporter
(src/export/mesh2ply.cpp), of the PLY data holder (src/private/ply_data.cpp) and of the PLY mesh loader
(src/util/ply_mesh.cpp).

Simplifications: `float` is an exact ordered field `K` (conversions `double` -> `float` are the identity);
tinyply is not modelled: a PLY file is the pair of buffers with their element counts handed to, or received
from it. -/

namespace Isomesh

/-- `Mesh::Vertex` (mesh.hpp:25-34). -/
structure MeshVertex (K : Type) where
  position : Vec3 K
  normal : Vec3 K
  material : Material
  deriving DecidableEq

/-- `Mesh` (mesh.hpp:23-94): the two arrays; `m_globalPos`, `m_globalScale` are plain settable fields. -/
structure Mesh (K : Type) where
  vertices : List (MeshVertex K)
  indices : List Nat

namespace Mesh

variable {K : Type}

/-- Default constructor (mesh.hpp:36). -/
def new : Mesh K := ⟨[], []⟩

/-- `addVertex` (mesh.cpp:16-24); the size assertion is a precondition (`none`); the result is converted
to `uint32_t`. -/
def addVertex (m : Mesh K) (pos normal : Vec3 K) (mat : Material) : Option (Mesh K × Nat) :=
  if m.vertices.length ≤ 4294967295 then
    let vs := m.vertices ++ [⟨pos, normal, mat⟩]
    some (⟨vs, m.indices⟩, u32 (vs.length - 1))
  else none

/-- `addTriangle` (mesh.cpp:26-34); a failed assertion is `none`. -/
def addTriangle (m : Mesh K) (i1 i2 i3 : Nat) : Option (Mesh K) :=
  if i1 < m.vertices.length ∧ i2 < m.vertices.length ∧ i3 < m.vertices.length then
    if i1 = i2 ∨ i2 = i3 ∨ i1 = i3 then some m
    else some ⟨m.vertices, m.indices ++ [i1, i2, i3]⟩
  else none

/-- `clear` (mesh.cpp:36-39). -/
def clear (_ : Mesh K) : Mesh K := ⟨[], []⟩

/-- Assignment through `operator []` (mesh.hpp:67); out of range is undefined behaviour (`none`). -/
def setVertex (m : Mesh K) (i : Nat) (v : MeshVertex K) : Option (Mesh K) := do
  let vs ← write m.vertices i v
  some ⟨vs, m.indices⟩

/-- `vertexCount` (mesh.hpp:74). -/
def vertexCount (m : Mesh K) : Nat := m.vertices.length

/-- `indexCount` (mesh.hpp:78). -/
def indexCount (m : Mesh K) : Nat := m.indices.length

end Mesh

/-- The element buffers of a PLY file as tinyply sees them: vertex count and coordinates, face count and
vertex indices (`mesh2ply.cpp:33,38`, `ply_data.cpp:30-35`). -/
structure PlyFile (K : Type) where
  vcount : Nat
  vdata : List K
  fcount : Nat
  fdata : List Nat

section
variable {K : Type}

/-- `mesh2ply` (mesh2ply.cpp:21-38). `fdata` is filled by the loop of lines 26-31: positions in order. -/
def mesh2ply (m : Mesh K) : PlyFile K :=
  { vcount := m.vertexCount
    vdata := m.vertices.flatMap (fun v => [v.position.x, v.position.y, v.position.z])
    fcount := m.indexCount / 3
    fdata := m.indices }

variable [Add K] [Sub K] [Mul K] [Div K] [Zero K] [OfNat K 2] [OfNat K 32] [LinearOrder K]

/-- `PlyData` (ply_data.hpp:15-41). -/
structure PlyData (K : Type) where
  direct : Bool
  file : PlyFile K
  center : Vec3 K
  multiplier : K

/-- One axis of the loop in `PlyData::normalization` (ply_data.cpp:107-120): running minimum and maximum. -/
def minMaxStep (mm : K × K) (c : K) : K × K :=
  (if c < mm.1 then c else mm.1, if c > mm.2 then c else mm.2)

/-- `PlyData::normalization` (ply_data.cpp:90-126).  `fltMax`, `fltMin` stand for
`std::numeric_limits<float>::max ()` and `min ()` (the smallest *positive* normal number).
`none`: a read past the end of the vertex buffer. -/
def normalization (fltMax fltMin : K) (f : PlyFile K) : Option (Vec3 K × K) := do
  let s ← (List.range f.vcount).foldlM
    (fun (s : (K × K) × (K × K) × (K × K)) (i : Nat) => do
      let x ← f.vdata[3 * i]?
      let y ← f.vdata[3 * i + 1]?
      let z ← f.vdata[3 * i + 2]?
      some (minMaxStep s.1 x, minMaxStep s.2.1 y, minMaxStep s.2.2 z))
    ((fltMax, fltMin), (fltMax, fltMin), (fltMax, fltMin))
  let ((minX, maxX), (minY, maxY), (minZ, maxZ)) := s
  let mult := max (maxX - minX) (max (maxY - minY) (maxZ - minZ))
  some (⟨(maxX + minX) / 2, (maxY + minY) / 2, (maxZ + minZ) / 2⟩, mult / 32)

namespace PlyData

/-- `PlyData::load` (ply_data.cpp:21-38) of a file with the given buffers (the winding flag keeps its
constructor value, ply_data.cpp:12-19). -/
def load (fltMax fltMin : K) (f : PlyFile K) : Option (PlyData K) := do
  let (c, m) ← normalization fltMax fltMin f
  some ⟨true, f, c, m⟩

/-- `setWindingOrder` (ply_data.cpp:128-138). -/
def setWindingOrder (d : PlyData K) (direct : Bool) : PlyData K := { d with direct := direct }

/-- `windingOrder` (ply_data.cpp:140-142). -/
def windingOrder (d : PlyData K) : Bool := d.direct

/-- `verticesCount` (ply_data.cpp:46-52). -/
def verticesCount (d : PlyData K) : Nat := d.file.vcount

/-- `trianglesCount` (ply_data.cpp:77-83). -/
def trianglesCount (d : PlyData K) : Nat := d.file.fcount

/-- `vertex` (ply_data.cpp:40-44). -/
def vertex (d : PlyData K) (idx : Nat) : Option (Vec3 K) := do
  let x ← d.file.vdata[3 * idx]?
  let y ← d.file.vdata[3 * idx + 1]?
  let z ← d.file.vdata[3 * idx + 2]?
  some ⟨(x - d.center.x) / d.multiplier, (y - d.center.y) / d.multiplier, (z - d.center.z) / d.multiplier⟩

/-- `triangleIndexs` (ply_data.cpp:61-75). Indices are non-negative. -/
def triangleIndexs (d : PlyData K) (idx : Nat) : Option (Nat × Nat × Nat) := do
  let i1 ← d.file.fdata[3 * idx]?
  if d.direct then do
    let i2 ← d.file.fdata[3 * idx + 1]?
    let i3 ← d.file.fdata[3 * idx + 2]?
    some (i1, i2, i3)
  else do
    let i2 ← d.file.fdata[3 * idx + 2]?
    let i3 ← d.file.fdata[3 * idx + 1]?
    some (i1, i2, i3)

/-- `triangle` (ply_data.cpp:54-59): the three corner points. -/
def triangle (d : PlyData K) (idx : Nat) : Option (Vec3 K × Vec3 K × Vec3 K) := do
  let t ← d.triangleIndexs idx
  let a ← d.vertex t.1
  let b ← d.vertex t.2.1
  let c ← d.vertex t.2.2
  some (a, b, c)

end PlyData

/-- `glm::vec3` difference. -/
def Vec3.sub (a b : Vec3 K) : Vec3 K := ⟨a.x - b.x, a.y - b.y, a.z - b.z⟩

/-- `glm::vec3` sum. -/
def Vec3.add (a b : Vec3 K) : Vec3 K := ⟨a.x + b.x, a.y + b.y, a.z + b.z⟩

/-- `glm::dot`. -/
def Vec3.dot (a b : Vec3 K) : K := a.x * b.x + a.y * b.y + a.z * b.z

/-- `glm::cross`. -/
def Vec3.cross (a b : Vec3 K) : Vec3 K :=
  ⟨a.y * b.z - b.y * a.z, a.z * b.x - b.z * a.x, a.x * b.y - b.x * a.y⟩

/-- Body of the normal accumulation loop of `ply2mesh` (ply_mesh.cpp:23-33). -/
def plyNormalStep (d : PlyData K) (ns : List (Vec3 K)) (i : Nat) : Option (List (Vec3 K)) := do
  let t ← d.triangleIndexs i
  let p1 ← d.vertex t.1
  let p2 ← d.vertex t.2.1
  let p3 ← d.vertex t.2.2
  let n := (p2.sub p3).cross (p2.sub p1)
  let ns ← write ns t.1 ((ns.getD t.1 ⟨0, 0, 0⟩).add n)
  let ns ← write ns t.2.1 ((ns.getD t.2.1 ⟨0, 0, 0⟩).add n)
  write ns t.2.2 ((ns.getD t.2.2 ⟨0, 0, 0⟩).add n)

/-- `ply2mesh` (ply_mesh.cpp:11-51) on a file with the given buffers.  `normalize` stands for
`glm::normalize`. -/
def ply2mesh (fltMax fltMin : K) (normalize : Vec3 K → Vec3 K) (f : PlyFile K) (reverse : Bool) :
    Option (Mesh K) := do
  let d ← PlyData.load fltMax fltMin f
  let d := if reverse then d.setWindingOrder false else d
  let vcount := d.verticesCount
  let fcount := d.trianglesCount
  let normals ← (List.range fcount).foldlM (plyNormalStep d) (List.replicate vcount ⟨0, 0, 0⟩)
  let normals := normals.map normalize
  let mesh ← (List.range vcount).foldlM (fun (m : Mesh K) i => do
    let v ← d.vertex i
    let n ← normals[i]?
    let r ← m.addVertex v n .Solid
    some r.1) Mesh.new
  (List.range fcount).foldlM (fun (m : Mesh K) i => do
    let t ← d.triangleIndexs i
    m.addTriangle t.1 t.2.1 t.2.2) mesh

end
end Isomesh
