import Verif.Model.Octree
import Verif.Model.UniformDC

/-! Model of `DC_Octree` (src/data/dc_octree.cpp) and `DC_OctreeNode` (src/data/dc_octree_node.cpp), apart from the
traversal, which is in `Verif.Model.Octree`.

Simplifications: `float` is any type `K` with the operations used; `glm::normalize` is an arbitrary function; `depth` (an `int16_t`) is a natural number;
`size` is `2 ^ k` and the recursion of `buildNode` is on `k`; the pointers of the union are represented by the
constructors of `Oct`.  Members of `leaf_data` that the code may leave unwritten are `Option`s: reading `none` (undefined
behaviour) makes the whole computation `none`, and so does a failed assertion. -/

namespace Isomesh

/-- Runs `b 0`, `b 1`, ... one after another with a state (a `for` loop over an array that fills another array). -/
def threadM {S α : Type} : (n : Nat) → (Fin n → S → Option (S × α)) → S → Option (S × (Fin n → α))
  | 0, _, s => some (s, fun i => i.elim0)
  | n + 1, b, s =>
    match b 0 s with
    | none => none
    | some (s, a) =>
      match threadM n (fun i => b i.succ) s with
      | none => none
      | some (s, r) => some (s, Fin.cons (α := fun _ => α) a r)

/-- Size check of the three octree constructors (dc_octree.cpp:15-19, mdc_octree.cpp:14-18, dmc_octree.cpp:15-19);
`rootSize` is an `int32_t`. -/
def octreeSizeOK (rootSize : Int) : Bool :=
  !(decide (rootSize ≤ 0) || decide (Int.toNat rootSize &&& Int.toNat (rootSize - 1) ≠ 0))

/-- `kCellCornerOffset[i]`. -/
def cornerOff (i : Fin 8) : IVec3 := kCellCornerOffset.getD i ⟨0, 0, 0⟩

section
variable {K : Type} [Add K] [Sub K] [Mul K] [Div K] [Neg K] [Zero K] [One K] [OfNat K 2] [OfScientific K] [NatCast K] [IntCast K]
  [Fabs K] [Elem K] [LinearOrder K]

/-- The members of `leaf_data` that are written together (dc_octree_node.hpp:29-35). -/
structure DcDual (K : Type) where
  vertex : Vec3 K
  normal : Vec3 K
  qef : QState K 3

/-- `leaf_data` and the depth of a leaf (dc_octree_node.hpp:28-41). -/
structure DcLeaf (K : Type) where
  depth : Nat
  corners : Fin 8 → Material
  dual : Option (DcDual K)
  vertexId : Option Nat

/-- A node; a subdivided one carries its depth. -/
abbrev DcNode (K : Type) := Oct Nat (DcLeaf K)

/-- `isHomogenous` of a leaf (dc_octree_node.cpp:43-54). -/
def DcLeaf.homogeneous (l : DcLeaf K) : Bool :=
  decide (∀ i, l.corners i = .Empty) || decide (∀ i, l.corners i ≠ .Empty)

/-- `leaf_data` of a node, if it is a leaf. -/
def dcLeafOf : DcNode K → Option (DcLeaf K)
  | .leaf l => some l
  | .inner _ _ => none

/-- `leaf_data` of the eight children; `none` if one of them is subdivided. -/
def dcLeafChildren (ch : Fin 8 → DcNode K) : Option (Fin 8 → DcLeaf K) :=
  if h : ∀ i, ((dcLeafOf (ch i)).isSome) = true then some fun i => (dcLeafOf (ch i)).get (h i) else none

/-- `edge_table` of `buildLeaf` (dc_octree.cpp:383-387). -/
def dcEdgeEnds : Axis → Fin 4 → Fin 8 × Fin 8
  | .X => ![(0, 2), (1, 3), (4, 6), (5, 7)]
  | .Y => ![(0, 4), (1, 5), (2, 6), (3, 7)]
  | .Z => ![(0, 1), (2, 3), (4, 5), (6, 7)]

/-- Loop variables of `buildLeaf`: the solver, `avg_normal`, `has_edges`. -/
structure DcLeafState (K : Type) where
  q : Qef K 3
  avg : Vec3 K
  has : Bool

/-- Body of the inner loop of `buildLeaf` (dc_octree.cpp:390-406). -/
def dcLeafEdge (env : DcEnv K) (g : Grid K) (lo : IVec3) (corners : Fin 8 → Material) (D : Axis) (s : DcLeafState K) (i : Fin 4) :
    Option (DcLeafState K) :=
  let mat1 := corners (dcEdgeEnds D i).1
  let mat2 := corners (dcEdgeEnds D i).2
  if mat1 = mat2 then some s
  else if mat1 ≠ .Empty ∧ mat2 ≠ .Empty then some s
  else
    let off := cornerOff (dcEdgeEnds D i).1
    match findEdge (g.edges D) (lo.x + off.x) (lo.y + off.y) (lo.z + off.z) with
    | none => none
    | some it =>
      match (g.edges D)[it]? with
      | none => none
      | some e =>
        let vertex := e.surfacePoint
        let normal := edgeNormal env.eps e.gradient
        match s.q.addPlane qef3Rows env.tiny vertex.toVecN normal.toVecN with
        | none => none
        | some q => some ⟨q, s.avg.add normal, true⟩

/-- The loops of `buildLeaf` (dc_octree.cpp:388-408). -/
def dcLeafEdges (env : DcEnv K) (g : Grid K) (lo : IVec3) (corners : Fin 8 → Material) (s : DcLeafState K) : Option (DcLeafState K) :=
  [Axis.X, .Y, .Z].foldlM (fun s D => (List.finRange 4).foldlM (dcLeafEdge env g lo corners D) s) s

/-- `glm::vec3 (min_corner + size)`. -/
def upperCorner (lo : IVec3) (k : Nat) : IVec3 := ⟨lo.x + 2 ^ k, lo.y + 2 ^ k, lo.z + 2 ^ k⟩

/-- Solution of the collected system for the box of the node and its storage (dc_octree.cpp:410-415, 357-367 without the
error test). -/
def dcSolveBox (env : DcEnv K) (q : Qef K 3) (lo : IVec3) (k : Nat) : Option (Qef K 3 × VecN K 3) :=
  q.solve qef3Rows env.tiny lo.toReal.toVecN (upperCorner lo k).toReal.toVecN

/-- `buildLeaf` (dc_octree.cpp:371-416), always called with size 1. -/
def dcBuildLeaf (env : DcEnv K) (g : Grid K) (depth : Nat) (lo : IVec3) (q : Qef K 3) : Option (Qef K 3 × DcNode K) := do
  let idx ← g.pointToIndex lo
  let ms ← g.materialsOfCell idx
  let corners : Fin 8 → Material := fun i => ms.getD i .Empty
  let s ← dcLeafEdges env g lo corners ⟨q.reset, ⟨0, 0, 0⟩, false⟩
  if s.has then do
    let qv ← dcSolveBox env s.q lo 0
    let qs ← qv.1.state qef3Rows 30 env.tiny
    some (qs.1, .leaf ⟨depth, corners, some ⟨Vec3.ofVecN qv.2, env.normalize s.avg, qs.2⟩, none⟩)
  else some (s.q, .leaf ⟨depth, corners, none, none⟩)

/-- `CubeMaterials`: the entry `[y][x][z]` is at `⟨x, y, z⟩`. -/
abbrev CubeMats := IVec3 → Material

/-- One entry of `isManifold` for the corners `at_` in octree numbering (dc_octree.cpp:439-446, 448-457). -/
def dcManifold (at_ : Fin 8 → Material) : Bool :=
  kIsManifold.getD ((List.finRange 8).foldl (fun mask i =>
    if at_ i ≠ .Empty then mask ||| 1 <<< (kDcToMc.getD i 0) else mask) 0) false

/-- Sum of two offsets. -/
def IVec3.plus (a b : IVec3) : IVec3 := ⟨a.x + b.x, a.y + b.y, a.z + b.z⟩

/-- `checkTopoSafety` (dc_octree.cpp:418-490); a function without side effects whose early returns are the factors of a
conjunction.  `mats[a][b][c]` is `mats ⟨b, a, c⟩`. -/
def dcTopoSafety (mats : CubeMats) : Bool :=
  -- the whole cube
  dcManifold (fun i => mats ((cornerOff i).plus (cornerOff i))) &&
  -- its octants
  (List.finRange 8).all (fun i => dcManifold fun j => mats ((cornerOff i).plus (cornerOff j))) &&
  -- edge midpoints
  [(0 : Int), 1, 2].all (fun c1 => [(0 : Int), 1, 2].all fun c2 =>
    !(decide (mats ⟨c1, 1, c2⟩ ≠ mats ⟨c1, 0, c2⟩) && decide (mats ⟨c1, 1, c2⟩ ≠ mats ⟨c1, 2, c2⟩)) &&
    !(decide (mats ⟨1, c1, c2⟩ ≠ mats ⟨0, c1, c2⟩) && decide (mats ⟨1, c1, c2⟩ ≠ mats ⟨2, c1, c2⟩)) &&
    !(decide (mats ⟨c2, c1, 1⟩ ≠ mats ⟨c2, c1, 0⟩) && decide (mats ⟨c2, c1, 1⟩ ≠ mats ⟨c2, c1, 2⟩))) &&
  -- face midpoints
  [(0 : Int), 1, 2].all (fun c1 =>
    [(⟨0, 0, c1⟩ : IVec3), ⟨2, 0, c1⟩, ⟨0, 2, c1⟩, ⟨2, 2, c1⟩].any (fun p => decide (mats ⟨1, 1, c1⟩ = mats p)) &&
    [(⟨c1, 0, 0⟩ : IVec3), ⟨c1, 0, 2⟩, ⟨c1, 2, 0⟩, ⟨c1, 2, 2⟩].any (fun p => decide (mats ⟨c1, 1, 1⟩ = mats p)) &&
    [(⟨0, c1, 0⟩ : IVec3), ⟨0, c1, 2⟩, ⟨2, c1, 0⟩, ⟨2, c1, 2⟩].any (fun p => decide (mats ⟨1, c1, 1⟩ = mats p))) &&
  -- the centre
  (List.finRange 8).any (fun i => decide (mats ⟨1, 1, 1⟩ = mats ((cornerOff i).plus (cornerOff i))))

/-- The loops that fill `mats` (dc_octree.cpp:343-349); all 27 entries are written. -/
def dcCubeMats (l : Fin 8 → DcLeaf K) : CubeMats :=
  (List.finRange 8).foldl (fun m i => (List.finRange 8).foldl (fun m j =>
    fun p => if p = (cornerOff i).plus (cornerOff j) then (l i).corners j else m p) m) (fun _ => .Empty)

/-- Body of the loop that merges the children (dc_octree.cpp:354-359). -/
def dcMergeStep (env : DcEnv K) (l : Fin 8 → DcLeaf K) (s : Qef K 3 × Vec3 K) (i : Fin 8) : Option (Qef K 3 × Vec3 K) :=
  if (l i).homogeneous then some s
  else
    match (l i).dual with
    | none => none
    | some d =>
      match s.1.merge qef3Rows env.tiny d.qef with
      | none => none
      | some q => some (q, s.2.add d.normal)

/-- The part of `buildNode` after a positive topology test (dc_octree.cpp:352-368). -/
def dcFit (env : DcEnv K) (epsilon : K) (depth : Nat) (lo : IVec3) (k : Nat) (ch : Fin 8 → DcNode K) (l : Fin 8 → DcLeaf K)
    (q : Qef K 3) : Option (Qef K 3 × DcNode K) := do
  let qa ← (List.finRange 8).foldlM (dcMergeStep env l) (q.reset, ⟨0, 0, 0⟩)
  let qv ← dcSolveBox env qa.1 lo k
  let error ← qv.1.eval qef3Rows qv.2
  if error > epsilon then some (qv.1, .inner depth ch)
  else do
    let qs ← qv.1.state qef3Rows 30 env.tiny
    some (qs.1, .leaf ⟨depth, fun i => (l i).corners i, some ⟨Vec3.ofVecN qv.2, env.normalize qa.2, qs.2⟩, none⟩)

/-- The part of `buildNode` after the children have been built (dc_octree.cpp:321-369). -/
def dcTryCollapse (env : DcEnv K) (epsilon : K) (simplify : Bool) (depth : Nat) (lo : IVec3) (k : Nat) (ch : Fin 8 → DcNode K)
    (q : Qef K 3) : Option (Qef K 3 × DcNode K) :=
  match dcLeafChildren ch with
  | none => some (q, .inner depth ch)
  | some l =>
    if ∀ i, (l i).homogeneous = true then some (q, .leaf ⟨depth, fun i => (l i).corners i, none, none⟩)
    else if simplify then
      if dcTopoSafety (dcCubeMats l) then dcFit env epsilon depth lo k ch l q
      else some (q, .inner depth ch)
    else some (q, .inner depth ch)

/-- Lower corner of child `i` (dc_octree.cpp:317). -/
def childCorner (lo : IVec3) (k : Nat) (i : Fin 8) : IVec3 :=
  ⟨lo.x + 2 ^ k * (cornerOff i).x, lo.y + 2 ^ k * (cornerOff i).y, lo.z + 2 ^ k * (cornerOff i).z⟩

/-- `buildNode` (dc_octree.cpp:308-369) for a node of size `2 ^ k`. -/
def dcBuildNode (env : DcEnv K) (g : Grid K) (epsilon : K) (simplify : Bool) :
    (k : Nat) → (depth : Nat) → IVec3 → Qef K 3 → Option (Qef K 3 × DcNode K)
  | 0, depth, lo, q => dcBuildLeaf env g depth lo q
  | k + 1, depth, lo, q =>
    match threadM 8 (fun i q => dcBuildNode env g epsilon simplify k (depth + 1) (childCorner lo k i) q) q with
    | none => none
    | some (q, ch) => dcTryCollapse env epsilon simplify depth lo (k + 1) ch q

/-- `DC_Octree`; `root_size` is `2 ^ level` (guaranteed by the constructor, see C52). -/
structure DcOctree (K : Type) where
  level : Nat
  globalPos : Vec3 K
  globalScale : K
  root : DcNode K

/-- `min_corner` of the root: `-m_rootSize / 2`, truncated (dc_octree.cpp:34). -/
def rootCorner (level : Nat) : IVec3 :=
  ⟨Int.tdiv (-(2 ^ level)) 2, Int.tdiv (-(2 ^ level)) 2, Int.tdiv (-(2 ^ level)) 2⟩

/-- `build` (dc_octree.cpp:21-42): a previous tree is discarded.  (Exceptions do not occur in the model.) -/
def DcOctree.build (env : DcEnv K) (o : DcOctree K) (g : Grid K) (solver : Qef K 3) (epsilon : K) (simplify : Bool) :
    Option (Qef K 3 × DcOctree K) :=
  match dcBuildNode env g (epsilon / (o.globalScale * o.globalScale)) simplify o.level 0 (rootCorner o.level) solver with
  | none => none
  | some (q, root) => some (q, { o with root := root })

/-- `makeVertices` (dc_octree.cpp:278-293): the mesh and the tree with the vertex numbers. -/
def dcMakeVertices : DcNode K → Mesh K → Option (Mesh K × DcNode K)
  | .leaf l, mesh =>
    if l.homogeneous then some (mesh, .leaf { l with vertexId := some kBadIndex })
    else
      match l.dual with
      | none => none
      | some d =>
        match mesh.addVertex d.vertex d.normal (FilterFast.new.addMany (List.ofFn l.corners)).select with
        | none => none
        | some (mesh, v) => some (mesh, .leaf { l with vertexId := some v })
  | .inner d ch, mesh =>
    match threadM 8 (fun i mesh => dcMakeVertices (ch i) mesh) mesh with
    | none => none
    | some (mesh, ch) => some (mesh, .inner d ch)

/-- `cornersTable` of `edgeProc` (dc_octree.cpp:71-75). -/
def dcCornersTable : Axis → Fin 4 → Fin 8 × Fin 8
  | .X => ![(5, 7), (1, 3), (0, 2), (4, 6)]
  | .Y => ![(3, 7), (2, 6), (0, 4), (1, 5)]
  | .Z => ![(6, 7), (4, 5), (0, 1), (2, 3)]

/-- The search for the deepest node (dc_octree.cpp:100-111): `max_depth`, `mat1`, `mat2`. -/
def dcMinimal (D : Axis) (n : Fin 4 → DcLeaf K) : Int × Material × Material :=
  (List.finRange 4).foldl (fun s i =>
    if (n i).depth > s.1 then ((n i).depth, (n i).corners (dcCornersTable D i).1, (n i).corners (dcCornersTable D i).2) else s)
    (-1, .Empty, .Empty)

/-- Emission of the two triangles (dc_octree.cpp:118-130). -/
def dcOctQuad (mesh : Mesh K) (id0 id1 id2 id3 : Nat) (flip : Bool) : Option (Mesh K) :=
  if !flip then do
    let mesh ← mesh.addTriangle id0 id1 id2
    mesh.addTriangle id0 id2 id3
  else do
    let mesh ← mesh.addTriangle id0 id2 id1
    mesh.addTriangle id0 id3 id2

/-- `edgeProc` for four leaves (dc_octree.cpp:100-130). -/
def dcEdgeLeaves (D : Axis) (n : Fin 4 → DcLeaf K) (mesh : Mesh K) : Option (Mesh K) :=
  let m := dcMinimal D n
  if m.2.1 = m.2.2 then some mesh
  else if m.2.1 ≠ .Empty ∧ m.2.2 ≠ .Empty then some mesh
  else do
    let id0 ← (n 0).vertexId
    let id1 ← (n 1).vertexId
    let id2 ← (n 2).vertexId
    let id3 ← (n 3).vertexId
    dcOctQuad mesh id0 id1 id2 id3 (decide (m.2.1 = .Empty))

/-- One call reached by the traversal. -/
def dcCall (mesh : Mesh K) (call : Axis × (Fin 4 → DcNode K)) : Option (Mesh K) := do
  let l0 ← dcLeafOf (call.2 0)
  let l1 ← dcLeafOf (call.2 1)
  let l2 ← dcLeafOf (call.2 2)
  let l3 ← dcLeafOf (call.2 3)
  dcEdgeLeaves call.1 ![l0, l1, l2, l3] mesh

/-- `contour` (dc_octree.cpp:299-306): the mesh and the octree with its vertex numbers. -/
def DcOctree.contour (o : DcOctree K) : Option (PlacedMesh K × DcOctree K) := do
  let mr ← dcMakeVertices o.root Mesh.new
  let mesh ← (dcTrav.cellProc mr.2).foldlM dcCall mr.1
  some (⟨mesh, o.globalPos, o.globalScale⟩, { o with root := mr.2 })

end
end Isomesh
