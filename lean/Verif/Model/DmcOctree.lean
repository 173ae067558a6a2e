import Verif.Model.DcOctree

/-! Model of `DMC_Octree` (src/data/dmc_octree.cpp, include/isomesh/data/dmc_octree.hpp) and `DMC_OctreeNode`
(src/data/dmc_octree_node.cpp), apart from the traversal, which is in `Verif.Model.Octree`.

Simplifications: `float` and `double` are any type `K` with the operations used; `glm::normalize` is an arbitrary function; the random number generator is an
arbitrary state machine that produces the offset of one sample point at a time; `size` is `2 ^ k` and the recursion of
`buildNode` is on `k`; the address of a node is an arbitrary function of its place (the results assume that different
leaves have different addresses).  `NodeHash` does not influence results and is left out.  `size * 8` does not overflow
(root sizes below `2 ^ 28`). -/

namespace Isomesh

noncomputable section
variable {K : Type} [Add K] [Sub K] [Mul K] [Div K] [Neg K] [Zero K] [One K] [OfNat K 2] [OfScientific K] [NatCast K] [IntCast K]
  [Fabs K] [Elem K] [LinearOrder K]

/-- Constants and functions of the environment: `tiny`, `lowest`, `highest` are `numeric_limits<float>::min ()`,
`lowest ()`, `max ()`; `seed` and `draw` are the generator (`std::mt19937`, `uniform_real_distribution<float> (0, size)`,
three numbers for one offset, dmc_octree.cpp:26, 414-416; the order in which the three arguments are evaluated is
unspecified in C++, `draw` stands for any order); `addr` is the address of the node with the given corner and size. -/
structure DmcEnv (K : Type) (R : Type) where
  tiny : K
  lowest : K
  highest : K
  normalize : Vec3 K → Vec3 K
  seed : Nat → R
  draw : Nat → R → Vec3 K × R
  addr : IVec3 → Nat → Nat

/-- The data of a leaf (dmc_octree_node.hpp:24-26) and its address; `material` is `none` while it has not been written
(the constructor leaves it uninitialised, dmc_octree_node.cpp:10). -/
structure DmcLeaf (K : Type) where
  addr : Nat
  vertex : Vec3 K
  w : K
  normal : Vec3 K
  material : Option Material

/-- A node; the data of a subdivided node are never read. -/
abbrev DmcNode (K : Type) := Oct Unit (DmcLeaf K)

/-- The three options of `build` (dmc_octree.hpp:28-30). -/
structure DmcFlags where
  simpleSplit : Bool
  randomSampling : Bool
  earlyStop : Bool

/-- `DMC_Octree` (dmc_octree.hpp:37-41); `root_size` is `2 ^ level` (guaranteed by the constructor, see C52). -/
structure DmcOctree (K : Type) where
  level : Nat
  globalPos : Vec3 K
  globalScale : K
  root : DmcNode K

/-- `localToGlobal` (dmc_octree.hpp:34). -/
def DmcOctree.localToGlobal (o : DmcOctree K) (L : Vec3 K) : Vec3 K :=
  ⟨L.x * o.globalScale + o.globalPos.x, L.y * o.globalScale + o.globalPos.y, L.z * o.globalScale + o.globalPos.z⟩

/-- `BuildArgs` without the solver and the generator, which are threaded through (dmc_octree.hpp:43-51). -/
structure DmcArgs (K : Type) (R : Type) where
  env : DmcEnv K R
  oct : DmcOctree K
  field : ScalarField K
  epsilon : K
  flags : DmcFlags

/-- `float (size)`. -/
def sizeK (k : Nat) : K := ((2 ^ k : Int) : K)

/-! ### Dual vertices -/

/-- The offsets drawn by `n` passes of the sampling loop (dmc_octree.cpp:415-416). -/
def dmcDraws {R : Type} (env : DmcEnv K R) (k : Nat) : Nat → R → List (Vec3 K) × R
  | 0, r => ([], r)
  | n + 1, r =>
    let d := env.draw k r
    let l := dmcDraws env k n d.2
    (d.1 :: l.1, l.2)

/-- `points_cnt` of the random case: `int (6.0 * glm::sqrt (size))` (dmc_octree.cpp:413). -/
def dmcPointCount (k : Nat) : Nat := ⌊6 * Real.sqrt (2 ^ k)⌋₊

/-- `sample_offset_table` (dmc_octree.cpp:430-441). -/
def dmcOffsetTable (k : Nat) : List (Vec3 K) :=
  let mn : K := 0.25 * sizeK k
  let mx : K := sizeK k - mn
  [⟨mn, mn, mn⟩, ⟨mn, mn, mx⟩, ⟨mx, mn, mn⟩, ⟨mx, mn, mx⟩, ⟨mn, mx, mn⟩, ⟨mn, mx, mx⟩, ⟨mx, mx, mn⟩, ⟨mx, mx, mx⟩]

/-- The offsets of the sample points and the next state of the generator (dmc_octree.cpp:412-443). -/
def dmcOffsets {R : Type} (a : DmcArgs K R) (k : Nat) (r : R) : List (Vec3 K) × R :=
  if a.flags.randomSampling then dmcDraws a.env k (dmcPointCount k) r else (dmcOffsetTable k, r)

/-- `glm::vec4 (v, w)`. -/
def vec4 (v : Vec3 K) (w : K) : VecN K 4 := ![v.x, v.y, v.z, w]

/-- `point_4d` of a sample (dmc_octree.cpp:417-422, 445-450). -/
def dmcPoint {R : Type} (a : DmcArgs K R) (lo : IVec3) (off : Vec3 K) : VecN K 4 :=
  let pointLocal := lo.toReal.add off
  vec4 pointLocal (a.field.value (a.oct.localToGlobal pointLocal) / a.oct.globalScale)

/-- `grad` of a sample (dmc_octree.cpp:421, 449). -/
def dmcGrad {R : Type} (a : DmcArgs K R) (lo : IVec3) (off : Vec3 K) : Vec3 K :=
  a.field.grad (a.oct.localToGlobal (lo.toReal.add off))

/-- Body of the sampling loops (dmc_octree.cpp:416-426, 444-454). -/
def dmcSample {R : Type} (a : DmcArgs K R) (lo : IVec3) (s : Qef K 4 × Vec3 K) (off : Vec3 K) : Option (Qef K 4 × Vec3 K) :=
  match s.1.addPlane qef4Rows a.env.tiny (dmcPoint a lo off) (vec4 (dmcGrad a lo off) (-1)) with
  | none => none
  | some q => some (q, s.2.add (dmcGrad a lo off))

/-- The solution stored in the node and its error (dmc_octree.cpp:458-467). -/
def dmcSolve {R : Type} (a : DmcArgs K R) (q : Qef K 4) (lo : IVec3) (k : Nat) : Option (Qef K 4 × VecN K 4 × K) := do
  let qv ← q.solve qef4Rows a.env.tiny (vec4 lo.toReal 0) (vec4 (upperCorner lo k).toReal 0)
  let error ← qv.1.eval qef4Rows qv.2
  if error > a.epsilon then do
    let qv ← qv.1.solve qef4Rows a.env.tiny (vec4 lo.toReal a.env.lowest) (vec4 (upperCorner lo k).toReal a.env.highest)
    let error ← qv.1.eval qef4Rows qv.2
    some (qv.1, qv.2, error)
  else some (qv.1, qv.2, error)

/-- `generateDualVertex` (dmc_octree.cpp:403-474): solver, generator, the node and the returned flag. -/
def dmcGenerate {R : Type} (a : DmcArgs K R) (lo : IVec3) (k : Nat) (s : Qef K 4 × R) :
    Option ((Qef K 4 × R) × DmcLeaf K × Bool) := do
  let offs := dmcOffsets a k s.2
  let qa ← offs.1.foldlM (dmcSample a lo) (s.1.reset, ⟨0, 0, 0⟩)
  let r ← dmcSolve a qa.1 lo k
  let vertex : Vec3 K := ⟨r.2.1 0, r.2.1 1, r.2.1 2⟩
  let w := r.2.1 3
  let material := if w ≤ 0 then some (a.field.material (a.oct.localToGlobal vertex) (w * a.oct.globalScale)) else none
  some ((r.1, offs.2), ⟨a.env.addr lo k, vertex, w, a.env.normalize qa.2, material⟩, decide (r.2.2 ≤ a.epsilon))

/-! ### Splitting criteria -/

/-- `glm::length`. -/
def vecLength (v : Vec3 K) : K := Elem.sqrt (v.dot v)

/-- `corner[i]` of `shouldSplit` and `point` of `shouldStopSplitting` (dmc_octree.cpp:481-484, 567-572). -/
def dmcCorner {R : Type} (a : DmcArgs K R) (lo : IVec3) (k : Nat) (i : Nat) : Vec3 K :=
  let side := sizeK k * a.oct.globalScale
  (a.oct.localToGlobal lo.toReal).add
    ⟨((kCellCornerOffset.getD i ⟨0, 0, 0⟩).x : K) * side, ((kCellCornerOffset.getD i ⟨0, 0, 0⟩).y : K) * side,
      ((kCellCornerOffset.getD i ⟨0, 0, 0⟩).z : K) * side⟩

/-- `values[i]` (dmc_octree.cpp:486-488). -/
def dmcValue {R : Type} (a : DmcArgs K R) (lo : IVec3) (k : Nat) (i : Nat) : K := a.field.value (dmcCorner a lo k i)

/-- `abs (predict - actual) / k` at a point (e.g. dmc_octree.cpp:509-512). -/
def dmcTerm {R : Type} (a : DmcArgs K R) (p : Vec3 K) (predict : K) : K :=
  fabs (predict - a.field.value p) / max 1 (vecLength (a.field.grad p))

/-- The terms of the loop over edge midpoints (dmc_octree.cpp:493-516). -/
def dmcEdgeTerms {R : Type} (a : DmcArgs K R) (lo : IVec3) (k : Nat) : List K :=
  let h : K := sizeK k * a.oct.globalScale * 0.5
  ([([0, 1, 4, 5], 2, ⟨h, 0, 0⟩), ([0, 1, 2, 3], 4, ⟨0, h, 0⟩), ([0, 2, 4, 6], 1, ⟨0, 0, h⟩)] :
      List (List Nat × Nat × Vec3 K)).flatMap fun d =>
    d.1.map fun id1 => dmcTerm a ((dmcCorner a lo k id1).add d.2.2)
      ((dmcValue a lo k id1 + dmcValue a lo k (id1 + d.2.1)) * 0.5)

/-- The terms of the loop over face midpoints (dmc_octree.cpp:518-547). -/
def dmcFaceTerms {R : Type} (a : DmcArgs K R) (lo : IVec3) (k : Nat) : List K :=
  let h : K := sizeK k * a.oct.globalScale * 0.5
  ([([0, 1], (2, 4, 6), ⟨h, h, 0⟩), ([0, 4], (1, 2, 3), ⟨h, 0, h⟩), ([0, 2], (1, 4, 5), ⟨0, h, h⟩)] :
      List (List Nat × (Nat × Nat × Nat) × Vec3 K)).flatMap fun d =>
    d.1.map fun id1 => dmcTerm a ((dmcCorner a lo k id1).add d.2.2)
      ((dmcValue a lo k id1 + dmcValue a lo k (id1 + d.2.1.1) + dmcValue a lo k (id1 + d.2.1.2.1) +
        dmcValue a lo k (id1 + d.2.1.2.2)) * 0.25)

/-- The term of the cell midpoint (dmc_octree.cpp:548-560). -/
def dmcCellTerm {R : Type} (a : DmcArgs K R) (lo : IVec3) (k : Nat) : K :=
  let h : K := sizeK k * a.oct.globalScale * 0.5
  dmcTerm a ((dmcCorner a lo k 0).add ⟨h, h, h⟩) ((List.range 8).foldl (fun s i => s + dmcValue a lo k i) 0 * 0.125)

/-- `error += term; if (error > epsilon) return true;` for a list of terms. -/
def dmcExceeds (epsilon : K) : K → List K → Bool
  | _, [] => false
  | error, t :: ts => if error + t > epsilon then true else dmcExceeds epsilon (error + t) ts

/-- `shouldSplit` (dmc_octree.cpp:476-562). -/
def dmcShouldSplit {R : Type} (a : DmcArgs K R) (lo : IVec3) (k : Nat) : Bool :=
  dmcExceeds a.epsilon 0 (dmcEdgeTerms a lo k ++ dmcFaceTerms a lo k ++ [dmcCellTerm a lo k])

/-- `shouldStopSplitting` (dmc_octree.cpp:564-578). -/
def dmcShouldStop {R : Type} (a : DmcArgs K R) (lo : IVec3) (k : Nat) : Bool :=
  let diag := sizeK k * a.oct.globalScale * Elem.sqrt ((3 : Nat) : K)
  (List.range 8).all fun i => !decide (fabs (dmcValue a lo k i) ≤ diag)

/-! ### Build -/

/-- A generated leaf as a node. -/
def dmcLeafNode {S : Type} : Option (S × DmcLeaf K × Bool) → Option (S × DmcNode K)
  | none => none
  | some (s, l, _) => some (s, .leaf l)

/-- Eight built children as a subdivided node. -/
def dmcInnerNode {S : Type} : Option (S × (Fin 8 → DmcNode K)) → Option (S × DmcNode K)
  | none => none
  | some (s, ch) => some (s, .inner () ch)

/-- `buildNode` (dmc_octree.cpp:364-401) for a node of size `2 ^ k`. -/
def dmcBuildNode {R : Type} (a : DmcArgs K R) : (k : Nat) → IVec3 → Qef K 4 × R → Option ((Qef K 4 × R) × DmcNode K)
  | 0, lo, s => dmcLeafNode (dmcGenerate a lo 0 s)
  | k + 1, lo, s =>
    let split (s : Qef K 4 × R) : Option ((Qef K 4 × R) × DmcNode K) :=
      dmcInnerNode (threadM 8 (fun i s => dmcBuildNode a k (childCorner lo k i) s) s)
    if a.flags.earlyStop && dmcShouldStop a lo (k + 1) then dmcLeafNode (dmcGenerate a lo (k + 1) s)
    else if a.flags.simpleSplit then
      if decide (k + 1 = a.oct.level) || dmcShouldSplit a lo (k + 1) then split s
      else dmcLeafNode (dmcGenerate a lo (k + 1) s)
    else if 2 ^ (k + 1) * 8 < 2 ^ a.oct.level then
      match dmcGenerate a lo (k + 1) s with
      | none => none
      | some (s, l, ok) => if ok then some (s, .leaf l) else split s
    else split s

/-- `build` (dmc_octree.cpp:21-39): a previous tree is discarded.  (Exceptions do not occur in the model.) -/
def DmcOctree.build {R : Type} (env : DmcEnv K R) (o : DmcOctree K) (field : ScalarField K) (solver : Qef K 4) (epsilon : K)
    (flags : DmcFlags) (seed : Nat) : Option (Qef K 4 × DmcOctree K) :=
  match dmcBuildNode ⟨env, o, field, epsilon / (o.globalScale * o.globalScale), flags⟩ o.level (rootCorner o.level)
    (solver, env.seed seed) with
  | none => none
  | some (s, root) => some (s.1, { o with root := root })

/-! ### Contouring -/

/-- `lerp` (dmc_octree.cpp:55-57). -/
def dmcLerp (a : Vec3 K) (wa : K) (b : Vec3 K) (wb : K) : Vec3 K :=
  ⟨(a.x * wb + b.x * wa) / (wa + wb), (a.y * wb + b.y * wa) / (wa + wb), (a.z * wb + b.z * wa) / (wa + wb)⟩

/-- The mesh and `vtx_map`; the map is the list of its entries in the order of insertion. -/
structure DmcState (K : Type) where
  mesh : Mesh K
  map : List ((Nat × Nat) × Nat)

/-- Reads `material`; `junk` gives the content of uninitialised memory (`none`: such a read is an error). -/
def DmcLeaf.readMaterial (junk : Nat → Option Material) (l : DmcLeaf K) : Option Material :=
  match l.material with
  | some m => some m
  | none => junk l.addr

/-- `std::minmax (sub[i1], sub[i2])` (dmc_octree.cpp:90-91). -/
def dmcKey (a b : DmcLeaf K) : Nat × Nat := (min a.addr b.addr, max a.addr b.addr)

/-- `sub[i1]->material == Material::Empty ? sub[i2]->material : sub[i1]->material` (dmc_octree.cpp:97-98). -/
def dmcMaterial (junk : Nat → Option Material) (a b : DmcLeaf K) : Option Material :=
  match a.readMaterial junk with
  | none => none
  | some m1 => if m1 = .Empty then b.readMaterial junk else some m1

/-- Creation of the vertex of a dual edge (dmc_octree.cpp:94-100). -/
def dmcNewVertex (normalize : Vec3 K → Vec3 K) (junk : Nat → Option Material) (a b : DmcLeaf K) (s : DmcState K) :
    Option (DmcState K × Nat) := do
  let w1 := fabs (a.w)
  let w2 := fabs (b.w)
  let mat ← dmcMaterial junk a b
  let mv ← s.mesh.addVertex (dmcLerp a.vertex w1 b.vertex w2) (normalize (dmcLerp a.normal w1 b.normal w2)) mat
  some (⟨mv.1, s.map ++ [(dmcKey a b, mv.2)]⟩, mv.2)

/-- The vertex of a dual edge, found or created (dmc_octree.cpp:90-102). -/
def dmcEdgeVertex (normalize : Vec3 K → Vec3 K) (junk : Nat → Option Material) (a b : DmcLeaf K) (s : DmcState K) :
    Option (DmcState K × Nat) :=
  match s.map.find? (fun e => e.1 = dmcKey a b) with
  | some e => some (s, e.2)
  | none => dmcNewVertex normalize junk a b s

/-- `vertex_mask` (dmc_octree.cpp:77-82). -/
def dmcMask (sub : Fin 8 → DmcLeaf K) : Nat :=
  (List.finRange 8).foldl (fun mask i => if (sub i).w ≤ 0 then mask ||| 1 <<< i.val else mask) 0

/-- Body of the loop over the edges of the dual cell (dmc_octree.cpp:85-104): `edge_vertex` grows by one element. -/
def dmcEdgeStep (normalize : Vec3 K → Vec3 K) (junk : Nat → Option Material) (sub : Fin 8 → DmcLeaf K) (edgeMask : Nat)
    (s : DmcState K × List Nat) (i : Nat) : Option (DmcState K × List Nat) :=
  if edgeMask &&& (1 <<< i) ≠ 0 then
    let i1 := (kCellEdgeEndpoint.getD i []).getD 0 0
    let i2 := (kCellEdgeEndpoint.getD i []).getD 1 0
    match dmcEdgeVertex normalize junk (sub (Fin.ofNat 8 i1)) (sub (Fin.ofNat 8 i2)) s.1 with
    | none => none
    | some (s', v) => some (s', s.2 ++ [v])
  else some (s.1, s.2 ++ [kBadIndex])

/-- `vertProc` for eight leaves (dmc_octree.cpp:76-110). -/
def dmcVertLeaves (normalize : Vec3 K → Vec3 K) (junk : Nat → Option Material) (sub : Fin 8 → DmcLeaf K) (s : DmcState K) :
    Option (DmcState K) := do
  let mask := dmcMask sub
  let edgeMask ← kMcVertexMaskToEdgeMask[mask]?
  let r ← (List.range 12).foldlM (dmcEdgeStep normalize junk sub edgeMask) (s, [])
  let row ← kMcTriangleTable[mask]?
  let mesh ← emitTriangles (r.2.map some) row r.1.mesh
  some ⟨mesh, r.1.map⟩

/-- The data of a leaf node. -/
def dmcLeafOf : DmcNode K → Option (DmcLeaf K)
  | .leaf l => some l
  | .inner _ _ => none

/-- One call of the dual cell routine reached by the traversal. -/
def dmcCall (normalize : Vec3 K → Vec3 K) (junk : Nat → Option Material) (s : DmcState K) (call : Fin 8 → DmcNode K) :
    Option (DmcState K) := do
  let l0 ← dmcLeafOf (call 0)
  let l1 ← dmcLeafOf (call 1)
  let l2 ← dmcLeafOf (call 2)
  let l3 ← dmcLeafOf (call 3)
  let l4 ← dmcLeafOf (call 4)
  let l5 ← dmcLeafOf (call 5)
  let l6 ← dmcLeafOf (call 6)
  let l7 ← dmcLeafOf (call 7)
  dmcVertLeaves normalize junk ![l0, l1, l2, l3, l4, l5, l6, l7] s

/-- `contour` (dmc_octree.cpp:355-362). -/
def DmcOctree.contour (normalize : Vec3 K → Vec3 K) (junk : Nat → Option Material) (o : DmcOctree K) :
    Option (PlacedMesh K) := do
  let s ← (dcTrav.cellProcV o.root).foldlM (dmcCall normalize junk) ⟨Mesh.new, []⟩
  some ⟨s.mesh, o.globalPos, o.globalScale⟩

end
end Isomesh
