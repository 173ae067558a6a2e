import Verif.Model.Grid
import Verif.Model.Mesh
import Verif.Model.Tables

/-! Model of src/algo/marching_cubes.cpp.

Simplifications: `UniformGridEdge::surfaceNormal` (square root) is an arbitrary function `nrm` of the stored gradient;
`double` -> `float` conversions are the identity; `reserve` calls are dropped. -/

namespace Isomesh

/-- A mesh with its placement (`Mesh::m_globalPos`, `Mesh::m_globalScale`, set by marching_cubes.cpp:113-114). -/
structure PlacedMesh (K : Type) where
  mesh : Mesh K
  globalPos : Vec3 K
  globalScale : K

/-- `EdgeEntry` (marching_cubes.cpp:16-27). -/
structure EdgeEntry where
  cellIndex : Nat
  vertexIndex : Nat
  deriving DecidableEq, Repr

/-- `getVertexMask` (marching_cubes.cpp:29-36). -/
def getVertexMask {K : Type} (g : Grid K) (cellIdx : Nat) : Option Nat := do
  let ms ← g.materialsOfCell cellIdx
  (List.range 8).foldlM (fun (mask : Nat) (i : Nat) => do
    let m ← ms[i]?
    some (if m ≠ .Empty then mask ||| (1 <<< i) else mask)) 0

/-- State of the `collectCellEdges` loop: the mesh and the four lists passed by reference. -/
structure CollectState (K : Type) where
  mesh : Mesh K
  l0 : List EdgeEntry
  l1 : List EdgeEntry
  l2 : List EdgeEntry
  l3 : List EdgeEntry

/-- `if (cells[k] != kBadIndex) cell_edges_k.emplace_back (cells[k], vertex_idx)` (marching_cubes.cpp:56-63). -/
def pushEntry (l : List EdgeEntry) (cell vertex : Nat) : List EdgeEntry :=
  if cell ≠ kBadIndex then l ++ [⟨cell, vertex⟩] else l

/-- Body of the loop of `collectCellEdges<D>` (marching_cubes.cpp:47-64). -/
def collectStep {K : Type} [Add K] [IntCast K] (nrm : Vec3 K → Vec3 K) (g : Grid K) (D : Axis) (s : CollectState K)
    (e : GridEdge K) : Option (CollectState K) := do
  let (mesh, v) ← s.mesh.addVertex e.surfacePoint (nrm e.gradient) e.material
  let (c0, c1, c2, c3) ← g.adjacentCellsForEdge D e.lesserEndpoint
  some ⟨mesh, pushEntry s.l0 c0 v, pushEntry s.l1 c1 v, pushEntry s.l2 c2 v, pushEntry s.l3 c3 v⟩

/-- `collectCellEdges<D>` called with empty lists (marching_cubes.cpp:38-65). -/
def collectCellEdges {K : Type} [Add K] [IntCast K] (nrm : Vec3 K → Vec3 K) (g : Grid K) (D : Axis) (mesh : Mesh K) :
    Option (CollectState K) :=
  (g.edges D).foldlM (collectStep nrm g D) ⟨mesh, [], [], [], []⟩

/-- `std::sort` of the entries by cell index (marching_cubes.cpp:82); modelled by merge sort.  The entries of one
list have different cell indices (proved), so the result does not depend on the algorithm. -/
def sortEntries (l : List EdgeEntry) : List EdgeEntry := l.mergeSort (fun a b => decide (a.cellIndex ≤ b.cellIndex))

/-- One step of the minimum search (marching_cubes.cpp:88-89); an iterator is the list of the remaining entries. -/
def minStep (m : Nat) : List EdgeEntry → Nat
  | [] => m
  | e :: _ => min m e.cellIndex

/-- The minimum search (marching_cubes.cpp:86-89). -/
def minUnprocessed (its : List (List EdgeEntry)) : Nat := its.foldl minStep kBadIndex

/-- One pass of the collecting loop for iterator `it` (marching_cubes.cpp:97-102): the vertex index if the iterator
points at an entry of the cell, and the advanced iterator. -/
def takeEntry (cell : Nat) (it : List EdgeEntry) : Option Nat × List EdgeEntry :=
  match it with
  | [] => (none, [])
  | e :: rest => if e.cellIndex = cell then (some e.vertexIndex, rest) else (none, e :: rest)

/-- `edge_mask` (marching_cubes.cpp:95-103): bit `i` is set when slot `i` has a vertex. -/
def edgeMaskOf (vs : List (Option Nat)) : Nat :=
  (List.range 12).foldl (fun (w : Nat) (i : Nat) => if (vs.getD i none).isSome then w ||| (1 <<< i) else w) 0

/-- The triangle loop (marching_cubes.cpp:106-111): reads the row from position `i` on until `-1`; `none` for a read
past the end of the row or of an uninitialised `vertex_idx` element. -/
def emitTriangles {K : Type} (vs : List (Option Nat)) : List Int → Mesh K → Option (Mesh K)
  | [], _ => none
  | a :: rest, mesh =>
    if a = -1 then some mesh
    else match rest with
      | b :: c :: rest' => do
        let v1 ← (vs[a.toNat]?).join
        let v2 ← (vs[b.toNat]?).join
        let v3 ← (vs[c.toNat]?).join
        let mesh ← mesh.addTriangle v1 v2 v3
        emitTriangles vs rest' mesh
      | _ => none

/-- Body of the main loop for one cell (marching_cubes.cpp:93-111); `none` if the assertion fails. -/
def processCell {K : Type} (g : Grid K) (cell : Nat) (vs : List (Option Nat)) (mesh : Mesh K) : Option (Mesh K) := do
  let mask ← getVertexMask g cell
  let expected ← kMcVertexMaskToEdgeMask[mask]?
  if edgeMaskOf vs = expected then do
    let row ← kMcTriangleTable[mask]?
    emitTriangles vs row mesh
  else none

/-- The main loop (marching_cubes.cpp:85-112). -/
def mcLoop {K : Type} (g : Grid K) (its : List (List EdgeEntry)) (mesh : Mesh K) : Option (Mesh K) :=
  let cell := minUnprocessed its
  if cell = kBadIndex then some mesh
  else do
    let mesh ← processCell g cell (its.map fun it => (takeEntry cell it).1) mesh
    mcLoop g (its.map fun it => (takeEntry cell it).2) mesh
partial_fixpoint

/-- `marchingCubes` (marching_cubes.cpp:71-116); the order of the arguments of the three `collectCellEdges` calls gives
the position of each list in `cell_edges`. -/
def marchingCubes {K : Type} [Add K] [IntCast K] (nrm : Vec3 K → Vec3 K) (g : Grid K) : Option (PlacedMesh K) := do
  let sx ← collectCellEdges nrm g .X Mesh.new
  let sy ← collectCellEdges nrm g .Y sx.mesh
  let sz ← collectCellEdges nrm g .Z sy.mesh
  let cellEdges := [sx.l2, sx.l1, sx.l3, sx.l0, sy.l2, sy.l3, sy.l1, sy.l0, sz.l2, sz.l3, sz.l1, sz.l0]
  let mesh ← mcLoop g (cellEdges.map sortEntries) sz.mesh
  some ⟨mesh, g.globalPos, g.step⟩

end Isomesh
