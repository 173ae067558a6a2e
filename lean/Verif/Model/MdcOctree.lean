import Verif.Model.DcOctree
import Verif.Model.DSU

/-! Model of `MDC_Octree` (src/data/mdc_octree.cpp), `MDC_OctreeNode` and `MDC_Vertex` (include/isomesh/data/mdc_octree_node.hpp,
src/data/mdc_octree_node.cpp), apart from the traversal, which is in `Verif.Model.Octree`.

The vertices form a forest linked by pointers.  They are modelled by a heap (a list of vertices); an address is a position
in the heap, and `m_vertices` of a node is the list of the addresses of its elements.  `m_vertices.resize` appends to the
heap; the elements are never moved afterwards.

Simplifications: `float` is any type `K` with the operations used; `glm::normalize` is an arbitrary function; `depth` (a `uint8_t`) is a natural number; `size`
is `2 ^ k` and the recursion of `buildNode` is on `k`; a previous tree is discarded by `build` (`collapse`).  When an
octree is built again, the root keeps its vector of vertices and only resizes it; every member of these elements that is
read later is written first (`m_parent` of a vertex of the root is always null), so the model starts with fresh elements (justified in
`Verif.Props.MdcRebuild`, C68).
`MaterialFilter` is `MaterialFilterFast` (the default).  `m_isSubtreeCollapsed` is never used.  `none` stands for undefined
behaviour (out-of-range index, reading an unwritten member, division by zero), a failed assertion or divergence. -/

namespace Isomesh

section
variable {K : Type} [Add K] [Sub K] [Mul K] [Div K] [Neg K] [Zero K] [One K] [OfNat K 2] [OfScientific K] [NatCast K] [IntCast K]
  [Fabs K] [Elem K] [LinearOrder K]

/-- `MDC_Vertex` (mdc_octree_node.hpp:17-33); `m_qef` is not initialised by default. -/
structure MdcVertex (K : Type) where
  position : Vec3 K
  normal : Vec3 K
  material : Material
  collapsible : Bool
  error : K
  parent : Option Nat
  vertexIdx : Nat
  surfaceIdx : Nat
  qef : Option (QState K 3)

/-- Default member initialisers (mdc_octree_node.hpp:18-26). -/
def MdcVertex.new : MdcVertex K := ⟨⟨0, 0, 0⟩, ⟨0, 0, 0⟩, .Empty, true, -1, none, kBadIndex, kBadIndex, none⟩

/-- The vertices of an octree. -/
abbrev MdcHeap (K : Type) := List (MdcVertex K)

/-- A leaf (mdc_octree_node.hpp:35-67): depth, corners, vertex mask and `m_vertices`. -/
structure MdcLeaf where
  depth : Nat
  corners : Fin 8 → Material
  mask : Nat
  verts : List Nat

/-- A node; a subdivided one carries its depth and `m_vertices`. -/
abbrev MdcNode := Oct (Nat × List Nat) MdcLeaf

/-- `leaf_data` of a node, if it is a leaf. -/
def mdcLeafOf : MdcNode → Option MdcLeaf
  | .leaf l => some l
  | .inner _ _ => none

/-! ### Ancestors -/

/-- `highestAncestor` (mdc_octree_node.cpp:10-15). -/
def highestAncestor (h : MdcHeap K) (a : Nat) : Option Nat :=
  match h[a]? with
  | none => none
  | some v =>
    match v.parent with
    | none => some a
    | some p => highestAncestor h p
partial_fixpoint

/-- The loop of `highestCollapsibleAncestor` (mdc_octree_node.cpp:19-25); the inner `none` is the null pointer. -/
def highestCollapsibleLoop (h : MdcHeap K) (result : Option Nat) (v : Option Nat) : Option (Option Nat) :=
  match v with
  | none => some result
  | some p =>
    match h[p]? with
    | none => none
    | some x => highestCollapsibleLoop h (if x.collapsible then some p else result) x.parent
partial_fixpoint

/-- `highestCollapsibleAncestor` (mdc_octree_node.cpp:17-26). -/
def highestCollapsibleAncestor (h : MdcHeap K) (a : Nat) : Option (Option Nat) :=
  match h[a]? with
  | none => none
  | some x => highestCollapsibleLoop h (if x.collapsible then some a else none) x.parent

/-- The loop of `hasCollapsibleAncestor` (mdc_octree_node.cpp:46-54), from the parent on. -/
def hasCollapsibleAncestor (h : MdcHeap K) (v : Option Nat) : Option Bool :=
  match v with
  | none => some false
  | some p =>
    match h[p]? with
    | none => none
    | some x => if x.collapsible then some true else hasCollapsibleAncestor h x.parent
partial_fixpoint

/-! ### Building the leaves -/

/-- `kMdcEdgeSetIndex[mask][edge]`. -/
def mdcSetIndex (mask edge : Nat) : Option Int := (kMdcEdgeSetIndex[mask]?).bind (·[edge]?)

/-- `kCellEdgeDirection[i]` as an axis. -/
def cellEdgeAxis (i : Fin 12) : Axis :=
  match kCellEdgeDirection.getD i 0 with
  | 0 => .X
  | 1 => .Y
  | _ => .Z

/-- `kCellEdgeEndpoint[i][k]`. -/
def cellEdgeEnd (i : Fin 12) (k : Nat) : Fin 8 := Fin.ofNat 8 ((kCellEdgeEndpoint.getD i []).getD k 0)

/-- `kEdgeProcSharedEdge[D][i]`. -/
def sharedEdge (D : Axis) (i : Fin 4) : Nat := (kEdgeProcSharedEdge.getD D.idx []).getD i 0

/-- `vertex_mask` of `buildLeaf` (mdc_octree.cpp:343-346). -/
def mdcMask (corners : Fin 8 → Material) : Nat :=
  (List.finRange 8).foldl (fun mask i => if corners i ≠ .Empty then mask ||| 1 <<< (i : Nat) else mask) 0

/-- Local arrays of `buildLeaf` (mdc_octree.cpp:352-366). -/
structure MdcLeafState (K : Type) where
  q : Fin 4 → Qef K 3
  filter : Fin 4 → FilterFast
  avg : Fin 4 → Vec3 K
  used : Fin 8 → Bool
  cnt : Nat

/-- Body of the loop over the twelve edges (mdc_octree.cpp:368-387). -/
def mdcLeafEdge (env : DcEnv K) (g : Grid K) (lo : IVec3) (mask : Nat) (s : MdcLeafState K) (i : Fin 12) : Option (MdcLeafState K) := do
  let idx ← mdcSetIndex mask i
  if idx < 0 then some s
  else if h : idx.toNat < 4 then do
    let k : Fin 4 := ⟨idx.toNat, h⟩
    let cnt := max s.cnt (idx.toNat + 1)
    let storage := g.edges (cellEdgeAxis i)
    let off := cornerOff (cellEdgeEnd i 0)
    let it ← findEdge storage (lo.x + off.x) (lo.y + off.y) (lo.z + off.z)
    let e ← storage[it]?
    let point := e.surfacePoint
    let normal := edgeNormal env.eps e.gradient
    let q ← (s.q k).addPlane qef3Rows env.tiny point.toVecN normal.toVecN
    let corner := if e.lesserSolid then cellEdgeEnd i 0 else cellEdgeEnd i 1
    let filter := if !s.used corner then Function.update s.filter k ((s.filter k).add e.material) else s.filter
    some ⟨Function.update s.q k q, filter, Function.update s.avg k ((s.avg k).add normal),
      Function.update s.used corner true, cnt⟩
  else none

/-- The values written to one vertex (mdc_octree.cpp:391-397, 283-290): solution in the box, normal, material, error,
state. -/
def mdcSolveVertex (env : DcEnv K) (lo : IVec3) (k : Nat) (q : Qef K 3) (filter : FilterFast) (avg : Vec3 K) (v : MdcVertex K) :
    Option (MdcVertex K) := do
  let qv ← dcSolveBox env q lo k
  let error ← qv.1.eval qef3Rows qv.2
  let qs ← qv.1.state qef3Rows 30 env.tiny
  some { v with position := Vec3.ofVecN qv.2, normal := env.normalize avg, material := filter.select, error := error,
                qef := some qs.2 }

/-- `buildLeaf` (mdc_octree.cpp:340-398), always called with size 1; the solver passed by reference is only reset. -/
def mdcBuildLeaf (env : DcEnv K) (g : Grid K) (depth : Nat) (lo : IVec3) (s : Qef K 3 × MdcHeap K) :
    Option ((Qef K 3 × MdcHeap K) × MdcNode) := do
  let idx ← g.pointToIndex lo
  let ms ← g.materialsOfCell idx
  let corners : Fin 8 → Material := fun i => ms.getD i .Empty
  let mask := mdcMask corners
  let q := s.1.reset
  let st ← (List.finRange 12).foldlM (mdcLeafEdge env g lo mask)
    ⟨fun _ => q, fun _ => FilterFast.new, fun _ => ⟨0, 0, 0⟩, fun _ => false, 0⟩
  let vs ← (List.range st.cnt).mapM fun i =>
    if h : i < 4 then mdcSolveVertex env lo 0 (st.q ⟨i, h⟩) (st.filter ⟨i, h⟩) (st.avg ⟨i, h⟩) MdcVertex.new else none
  some ((q, s.2 ++ vs), .leaf ⟨depth, corners, mask, List.range' s.2.length st.cnt⟩)

/-- `buildNode` (mdc_octree.cpp:326-338) for a node of size `2 ^ k`; `m_vertices` of a subdivided node is empty. -/
def mdcBuildNode (env : DcEnv K) (g : Grid K) : (k : Nat) → (depth : Nat) → IVec3 → Qef K 3 × MdcHeap K →
    Option ((Qef K 3 × MdcHeap K) × MdcNode)
  | 0, depth, lo, s => mdcBuildLeaf env g depth lo s
  | k + 1, depth, lo, s =>
    match threadM 8 (fun i s => mdcBuildNode env g k (depth + 1) (childCorner lo k i) s) s with
    | none => none
    | some (s, ch) => some (s, .inner (depth, []) ch)

/-! ### Clustering -/

/-- Objects used while the vertices of one node are clustered: the heap, `dsu`, `vertices`. -/
structure MdcCluster (K : Type) where
  heap : MdcHeap K
  dsu : DSU
  vertices : List Nat

/-- Makes sure that the vertex has a set number (mdc_octree.cpp:172-175). -/
def mdcTouch (s : MdcCluster K) (v : Nat) : Option (MdcCluster K) := do
  let x ← s.heap[v]?
  if x.surfaceIdx = kBadIndex then do
    let r := s.dsu.addSet
    let heap ← write s.heap v { x with surfaceIdx := r.2 }
    some ⟨heap, r.1, s.vertices ++ [v]⟩
  else some s

/-- The loop of `clusterEdgeLeaves` over the remaining nodes (mdc_octree.cpp:167-176): the vertices found, or the inner
`none` for the early `return`. -/
def mdcClusterLoop (D : Axis) (n : Fin 4 → MdcLeaf) : List (Fin 4) → MdcCluster K → Option (MdcCluster K × Option (List Nat))
  | [], s => some (s, some [])
  | i :: is, s => do
    let idx ← mdcSetIndex (n i).mask (sharedEdge D i)
    if idx < 0 ∨ (n i).verts.length ≤ idx.toNat then some (s, none)
    else do
      let a ← (n i).verts[idx.toNat]?
      let v ← highestAncestor s.heap a
      let s ← mdcTouch s v
      let r ← mdcClusterLoop D n is s
      some (r.1, r.2.map (v :: ·))

/-- `m_surfaceIdx` of a vertex. -/
def mdcSurface (h : MdcHeap K) (v : Nat) : Option Nat := (h[v]?).map (·.surfaceIdx)

/-- `clusterEdgeLeaves<D>` (mdc_octree.cpp:164-181). -/
def mdcClusterLeaves (D : Axis) (n : Fin 4 → MdcLeaf) (s : MdcCluster K) : Option (MdcCluster K) := do
  let r ← mdcClusterLoop D n (List.finRange 4) s
  match r.2 with
  | some [v0, v1, v2, v3] => do
    let s0 ← mdcSurface r.1.heap v0
    let s1 ← mdcSurface r.1.heap v1
    let s2 ← mdcSurface r.1.heap v2
    let s3 ← mdcSurface r.1.heap v3
    let d ← r.1.dsu.mergeSets s0 s1
    let d ← d.mergeSets s2 s3
    let d ← d.mergeSets s0 s2
    some { r.1 with dsu := d }
  | _ => some r.1

/-- One call reached by the traversal. -/
def mdcClusterCall (s : MdcCluster K) (call : Axis × (Fin 4 → MdcNode)) : Option (MdcCluster K) := do
  let l0 ← mdcLeafOf (call.2 0)
  let l1 ← mdcLeafOf (call.2 1)
  let l2 ← mdcLeafOf (call.2 2)
  let l3 ← mdcLeafOf (call.2 3)
  mdcClusterLeaves call.1 ![l0, l1, l2, l3] s

/-- State of the renumbering loop: `dsu`, `set_idx`, `new_cnt`. -/
structure MdcRenumber where
  dsu : DSU
  setIdx : List Nat
  cnt : Nat

/-- Body of the renumbering loop (mdc_octree.cpp:260-267). -/
def mdcRenumberStep (s : MdcRenumber) (i : Nat) : Option MdcRenumber := do
  let r ← s.dsu.getSetLeader i
  let l ← s.setIdx[r.2]?
  let s' : MdcRenumber ←
    if l = kBadIndex then do
      let setIdx ← write s.setIdx r.2 s.cnt
      some ⟨r.1, setIdx, s.cnt + 1⟩
    else some ⟨r.1, s.setIdx, s.cnt⟩
  let l ← s'.setIdx[r.2]?
  let setIdx ← write s'.setIdx i l
  some { s' with setIdx := setIdx }

/-- The renumbering loop (mdc_octree.cpp:258-267). -/
def mdcRenumber (d : DSU) : Option MdcRenumber :=
  (List.range d.count).foldlM mdcRenumberStep ⟨d, List.replicate d.count kBadIndex, 0⟩

/-- State of the merging loop: the heap and the arrays `solver`, `filter`, `avg_normal`. -/
structure MdcMerge (K : Type) where
  heap : MdcHeap K
  q : List (Qef K 3)
  filter : List FilterFast
  avg : List (Vec3 K)

/-- Body of the merging loop (mdc_octree.cpp:275-282); `base` is the address of `node->m_vertices[0]`. -/
def mdcMergeStep (env : DcEnv K) (setIdx : List Nat) (base : Nat) (s : MdcMerge K) (a : Nat) : Option (MdcMerge K) := do
  let v ← s.heap[a]?
  let idx ← setIdx[v.surfaceIdx]?
  let q ← s.q[idx]?
  let st ← v.qef
  let q ← q.merge qef3Rows env.tiny st
  let qs ← write s.q idx q
  let n ← s.avg[idx]?
  let avg ← write s.avg idx (n.add v.normal)
  let f ← s.filter[idx]?
  let filter ← write s.filter idx (f.add v.material)
  let heap ← write s.heap a { v with surfaceIdx := kBadIndex, parent := some (base + idx) }
  some ⟨heap, qs, filter, avg⟩

/-- Body of the last loop of `clusterCell` (mdc_octree.cpp:285-291). -/
def mdcFinishStep (env : DcEnv K) (lo : IVec3) (k : Nat) (base : Nat) (s : MdcMerge K) (heap : MdcHeap K) (i : Nat) : Option (MdcHeap K) := do
  let q ← s.q[i]?
  let f ← s.filter[i]?
  let n ← s.avg[i]?
  let v ← heap[base + i]?
  let v ← mdcSolveVertex env lo k q f n v
  write heap (base + i) v

/-- `clusterCell` after the recursive calls (mdc_octree.cpp:249-292): the solver, the heap and the new `m_vertices`. -/
def mdcClusterNode (env : DcEnv K) (ch : Fin 8 → MdcNode) (lo : IVec3) (k : Nat) (q : Qef K 3) (heap : MdcHeap K) :
    Option ((Qef K 3 × MdcHeap K) × List Nat) := do
  let s ← (mdcTrav.cellCalls ch).foldlM mdcClusterCall ⟨heap, DSU.mk' 0, []⟩
  let r ← mdcRenumber s.dsu
  let base := s.heap.length
  let q := q.reset
  let m ← s.vertices.foldlM (mdcMergeStep env r.setIdx base)
    ⟨s.heap ++ List.replicate r.cnt MdcVertex.new, List.replicate r.cnt q, List.replicate r.cnt FilterFast.new,
      List.replicate r.cnt ⟨0, 0, 0⟩⟩
  let heap ← (List.range r.cnt).foldlM (mdcFinishStep env lo k base m) m.heap
  some ((q, heap), List.range' base r.cnt)

/-- `clusterCell` (mdc_octree.cpp:239-293) for a node of size `2 ^ k`. -/
def mdcClusterCell (env : DcEnv K) : MdcNode → IVec3 → Nat → Qef K 3 × MdcHeap K → Option ((Qef K 3 × MdcHeap K) × MdcNode)
  | .leaf l, _, _, s => some (s, .leaf l)
  | .inner d ch, lo, k, s =>
    match threadM 8 (fun i s => mdcClusterCell env (ch i) (childCorner lo (k - 1) i) (k - 1) s) s with
    | none => none
    | some (s, ch) =>
      match mdcClusterNode env ch lo k s.1 s.2 with
      | none => none
      | some (s, vs) => some (s, .inner (d.1, vs) ch)

/-- `MDC_Octree` (mdc_octree.hpp:20-47); `root_size` is `2 ^ level` (guaranteed by the constructor, see C52). -/
structure MdcOctree (K : Type) where
  level : Nat
  globalPos : Vec3 K
  globalScale : K
  root : MdcNode
  heap : MdcHeap K

/-- `build` (mdc_octree.cpp:299-312).  (Exceptions do not occur in the model.) -/
def MdcOctree.build (env : DcEnv K) (o : MdcOctree K) (g : Grid K) (solver : Qef K 3) : Option (Qef K 3 × MdcOctree K) :=
  match mdcBuildNode env g o.level 0 (rootCorner o.level) (solver, []) with
  | none => none
  | some (s, root) =>
    match mdcClusterCell env root (rootCorner o.level) o.level s with
    | none => none
    | some (s, root) => some (s.1, { o with root := root, heap := s.2 })

/-! ### Contouring -/

/-- Body of the loop of `addVerticesToMesh` (mdc_octree.cpp:143-155). -/
def mdcAddVertex (epsilon : K) (isLeaf : Bool) (s : MdcHeap K × Mesh K) (a : Nat) : Option (MdcHeap K × Mesh K) := do
  let v ← s.1[a]?
  let collapsible := if isLeaf then true else decide (v.error ≤ epsilon)
  let v := { v with collapsible := collapsible }
  let heap ← write s.1 a v
  let hidden ← hasCollapsibleAncestor heap v.parent
  if collapsible && !hidden then do
    let r ← s.2.addVertex v.position v.normal v.material
    let heap ← write heap a { v with vertexIdx := r.2 }
    some (heap, r.1)
  else do
    let heap ← write heap a { v with vertexIdx := kBadIndex }
    some (heap, s.2)

/-- `addVerticesToMesh` (mdc_octree.cpp:142-159). -/
def mdcAddVertices (epsilon : K) : MdcNode → MdcHeap K × Mesh K → Option (MdcHeap K × Mesh K)
  | .leaf l, s => l.verts.foldlM (mdcAddVertex epsilon true) s
  | .inner d ch, s => do
    let s ← d.2.foldlM (mdcAddVertex epsilon false) s
    (List.finRange 8).foldlM (fun s i => mdcAddVertices epsilon (ch i) s) s

/-- The loop of `edgeProcLeaves` over the remaining nodes (mdc_octree.cpp:27-35); the inner `none` is the early
`return`. -/
def mdcEdgeLoop (D : Axis) (n : Fin 4 → MdcLeaf) (h : MdcHeap K) : List (Fin 4) → Option (Option (List Nat))
  | [] => some (some [])
  | i :: is => do
    let idx ← mdcSetIndex (n i).mask (sharedEdge D i)
    if idx < 0 ∨ (n i).verts.length ≤ idx.toNat then some none
    else do
      let a ← (n i).verts[idx.toNat]?
      let r ← highestCollapsibleAncestor h a
      match r with
      | none => some none
      | some v => do
        let rest ← mdcEdgeLoop D n h is
        some (rest.map (v :: ·))

/-- `deepest_idx` (mdc_octree.cpp:40-47). -/
def mdcDeepest (n : Fin 4 → MdcLeaf) : Fin 4 :=
  ([1, 2, 3] : List (Fin 4)).foldl (fun s i => if (n i).depth > s.1 then ((n i).depth, i) else s) ((n 0).depth, (0 : Fin 4)) |>.2

/-- `flip` (mdc_octree.cpp:38-53). -/
def mdcFlip (D : Axis) (n : Fin 4 → MdcLeaf) : Bool :=
  let i := mdcDeepest n
  decide ((n i).corners (cellEdgeEnd (Fin.ofNat 12 (sharedEdge D i)) 0) = .Empty)

/-- `m_vertexIdx` of a vertex. -/
def mdcMeshIdx (h : MdcHeap K) (v : Nat) : Option Nat := (h[v]?).map (·.vertexIdx)

/-- `edgeProcLeaves<D>` (mdc_octree.cpp:25-67); the emission is the same as in `DC_Octree`. -/
def mdcEdgeLeaves (D : Axis) (n : Fin 4 → MdcLeaf) (h : MdcHeap K) (mesh : Mesh K) : Option (Mesh K) := do
  let r ← mdcEdgeLoop D n h (List.finRange 4)
  match r with
  | some [v0, v1, v2, v3] => do
    let id0 ← mdcMeshIdx h v0
    let id1 ← mdcMeshIdx h v1
    let id2 ← mdcMeshIdx h v2
    let id3 ← mdcMeshIdx h v3
    dcOctQuad mesh id0 id1 id2 id3 (mdcFlip D n)
  | _ => some mesh

/-- One call reached by the traversal. -/
def mdcCall (h : MdcHeap K) (mesh : Mesh K) (call : Axis × (Fin 4 → MdcNode)) : Option (Mesh K) := do
  let l0 ← mdcLeafOf (call.2 0)
  let l1 ← mdcLeafOf (call.2 1)
  let l2 ← mdcLeafOf (call.2 2)
  let l3 ← mdcLeafOf (call.2 3)
  mdcEdgeLeaves call.1 ![l0, l1, l2, l3] h mesh

/-- `contour` (mdc_octree.cpp:314-324): the mesh and the octree with the updated vertices. -/
def MdcOctree.contour (o : MdcOctree K) (epsilon : K) : Option (PlacedMesh K × MdcOctree K) := do
  let s ← mdcAddVertices (epsilon / (o.globalScale * o.globalScale)) o.root (o.heap, Mesh.new)
  let mesh ← (mdcTrav.cellProc o.root).foldlM (mdcCall s.1) s.2
  some (⟨mesh, o.globalPos, o.globalScale⟩, { o with heap := s.1 })

end
end Isomesh
