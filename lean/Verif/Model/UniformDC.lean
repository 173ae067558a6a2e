import Verif.Model.Grid
import Verif.Model.Mesh
import Verif.Model.MarchingCubes
import Verif.Model.MaterialFilter
import Verif.Model.Qef
import Verif.Model.EdgeNormal

/-! Model of src/algo/uniform_dual_contouring.cpp.

Simplifications: `float` is any type `K` with the operations used; `glm::normalize` is an arbitrary function `normalize`; `std::sort` is an arbitrary
function `srt` on lists (the theorems assume only that it returns a permutation sorted by cell index: the order of
entries of one cell is unspecified in C++); `reserve` calls are dropped. -/

namespace Isomesh

section
variable {K : Type} [Add K] [Sub K] [Mul K] [Div K] [Neg K] [Zero K] [One K] [OfNat K 2] [OfScientific K] [NatCast K] [IntCast K]
  [Fabs K] [Elem K] [LinearOrder K]

/-- `glm::vec3` as an argument of the solver. -/
def Vec3.toVecN (v : Vec3 K) : VecN K 3 := ![v.x, v.y, v.z]

/-- Result vector of the solver as a `glm::vec3`. -/
def Vec3.ofVecN (v : VecN K 3) : Vec3 K := ⟨v 0, v 1, v 2⟩

/-- `glm::vec3 (ivec3)`. -/
def IVec3.toReal (p : IVec3) : Vec3 K := ⟨(p.x : K), (p.y : K), (p.z : K)⟩

/-- `EdgeEntry` (uniform_dual_contouring.cpp:16-27): cell index and iterator to the edge (here the edge itself). -/
structure DcEntry (K : Type) where
  cellIndex : Nat
  edge : GridEdge K

/-- Constants and functions of the environment: `eps` is `numeric_limits<double>::epsilon ()`, `tiny` is
`numeric_limits<float>::min ()`. -/
structure DcEnv (K : Type) where
  eps : K
  tiny : K
  normalize : Vec3 K → Vec3 K
  srt : List (DcEntry K) → List (DcEntry K)

/-- Body of the loop of `collectCellEdges<D>` (uniform_dual_contouring.cpp:60-66). -/
def dcCollectStep (g : Grid K) (D : Axis) (l : List (DcEntry K)) (e : GridEdge K) : Option (List (DcEntry K)) := do
  let (c0, c1, c2, c3) ← g.adjacentCellsForEdge D e.lesserEndpoint
  some (l ++ ([c0, c1, c2, c3].filter (fun c => c ≠ kBadIndex)).map (fun c => ⟨c, e⟩))

/-- `collectCellEdges<D>` (uniform_dual_contouring.cpp:55-67). -/
def dcCollect (g : Grid K) (D : Axis) (l : List (DcEntry K)) : Option (List (DcEntry K)) :=
  (g.edges D).foldlM (dcCollectStep g D) l

/-- The inner loop of `generateDualVertices` (uniform_dual_contouring.cpp:36-43): adds the planes of the entries of
cell `cell` and returns the solver, the sum of the normals and the remaining entries.  (The loop is a `do`-`while`; its
first entry has index `cell` by the choice of `cell`.) -/
def dcAddPlanes (env : DcEnv K) (cell : Nat) : List (DcEntry K) → Qef K 3 → Vec3 K → Option (Qef K 3 × Vec3 K × List (DcEntry K))
  | [], q, avg => some (q, avg, [])
  | e :: rest, q, avg =>
    if e.cellIndex = cell then do
      let point := e.edge.surfacePoint
      let normal := edgeNormal env.eps e.edge.gradient
      let q ← q.addPlane qef3Rows env.tiny point.toVecN normal.toVecN
      dcAddPlanes env cell rest q (avg.add normal)
    else some (q, avg, e :: rest)

/-- State of `generateDualVertices`: the objects passed by reference. -/
structure DcState (K : Type) where
  q : Qef K 3
  mesh : Mesh K
  ids : List Nat

/-- Second half of the outer loop body of `generateDualVertices` (uniform_dual_contouring.cpp:44-51). -/
def dcFinishCell (env : DcEnv K) (g : Grid K) (cell : Nat) (q : Qef K 3) (avg : Vec3 K) (s : DcState K) : Option (DcState K) := do
  let lo ← g.indexToPoint cell
  let lower := lo.toReal
  let upper : Vec3 K := ⟨lower.x + 1, lower.y + 1, lower.z + 1⟩
  let (q, vertex) ← q.solve qef3Rows env.tiny lower.toVecN upper.toVecN
  let ms ← g.materialsOfCell cell
  let mat := (FilterFast.new.addMany ms).select
  let (mesh, v) ← s.mesh.addVertex (Vec3.ofVecN vertex) (env.normalize avg) mat
  let ids ← write s.ids cell v
  some ⟨q, mesh, ids⟩

/-- `generateDualVertices` (uniform_dual_contouring.cpp:29-53); an iterator is the list of the remaining entries. -/
def dcDualVertices (env : DcEnv K) (g : Grid K) (entries : List (DcEntry K)) (s : DcState K) : Option (DcState K) :=
  match entries with
  | [] => some s
  | e :: rest => do
    let (q, avg, rest') ← dcAddPlanes env e.cellIndex (e :: rest) s.q.reset ⟨0, 0, 0⟩
    let s ← dcFinishCell env g e.cellIndex q avg s
    dcDualVertices env g rest' s
partial_fixpoint

/-- Emission of the two triangles (uniform_dual_contouring.cpp:82-91). -/
def dcEmitQuad (mesh : Mesh K) (v0 v1 v2 v3 : Nat) (flip : Bool) : Option (Mesh K) :=
  if !flip then do
    let mesh ← mesh.addTriangle v0 v1 v3
    mesh.addTriangle v1 v2 v3
  else do
    let mesh ← mesh.addTriangle v0 v3 v1
    mesh.addTriangle v1 v3 v2

/-- Lookup of the four vertices with the assertion, and emission (uniform_dual_contouring.cpp:77-92). -/
def dcQuadOf (ids : List Nat) (mesh : Mesh K) (e : GridEdge K) (c0 c1 c2 c3 : Nat) : Option (Mesh K) := do
  let v0 ← ids[c0]?
  let v1 ← ids[c1]?
  let v2 ← ids[c2]?
  let v3 ← ids[c3]?
  if v0 ≠ kBadIndex ∧ v1 ≠ kBadIndex ∧ v2 ≠ kBadIndex ∧ v3 ≠ kBadIndex then
    dcEmitQuad mesh v0 v1 v2 v3 (!e.lesserSolid)
  else none

/-- Body of the loop of `generateQuads<D>` (uniform_dual_contouring.cpp:71-92). -/
def dcQuadStep (g : Grid K) (D : Axis) (ids : List Nat) (mesh : Mesh K) (e : GridEdge K) : Option (Mesh K) := do
  let (c0, c1, c2, c3) ← g.adjacentCellsForEdge D e.lesserEndpoint
  if c0 = kBadIndex ∨ c1 = kBadIndex ∨ c2 = kBadIndex ∨ c3 = kBadIndex then some mesh
  else dcQuadOf ids mesh e c0 c1 c2 c3

/-- `generateQuads<D>` (uniform_dual_contouring.cpp:69-93). -/
def dcQuads (g : Grid K) (D : Axis) (ids : List Nat) (mesh : Mesh K) : Option (Mesh K) :=
  (g.edges D).foldlM (dcQuadStep g D ids) mesh

/-- `dualContouring` (uniform_dual_contouring.cpp:99-120): the final solver and the mesh. -/
def dualContouring (env : DcEnv K) (g : Grid K) (solver : Qef K 3) : Option (Qef K 3 × PlacedMesh K) := do
  let l ← dcCollect g .X []
  let l ← dcCollect g .Y l
  let l ← dcCollect g .Z l
  let s ← dcDualVertices env g (env.srt l) ⟨solver, Mesh.new, List.replicate g.dataSize kBadIndex⟩
  let mesh ← dcQuads g .X s.ids s.mesh
  let mesh ← dcQuads g .Y s.ids mesh
  let mesh ← dcQuads g .Z s.ids mesh
  some (s.q, ⟨mesh, g.globalPos, g.step⟩)

end
end Isomesh
