import Verif.Model.MdcOctree

/-! `MDC_Octree` objects that are used repeatedly.  `Verif.Model.MdcOctree` models `build` of a new octree.  When `build` is called
again, the root node keeps its vector `m_vertices` (`collapse` does not touch it, mdc_octree_node.cpp:70-76) and `resize`
(mdc_octree.cpp:268, 387) keeps the first elements with all their members; this file models that, and what a `build` that ended with
an exception leaves behind.

As in `Verif.Model.MdcOctree`, the heap only holds the vertices that exist; the root's elements are at the end. -/

namespace Isomesh

section
variable {K : Type} [Add K] [Sub K] [Mul K] [Div K] [Neg K] [Zero K] [One K] [OfNat K 2] [OfScientific K] [NatCast K] [IntCast K]
  [Fabs K] [Elem K] [LinearOrder K]

/-- The addresses of the elements of `m_vertices` of a node. -/
def vertsOf : MdcNode → List Nat
  | .leaf l => l.verts
  | .inner d _ => d.2

/-- The elements of `m_root.m_vertices`. -/
def MdcOctree.kept (o : MdcOctree K) : Option (List (MdcVertex K)) := (vertsOf o.root).mapM (o.heap[·]?)

/-- `std::vector::resize`. -/
def resizeVec (old : List (MdcVertex K)) (n : Nat) : List (MdcVertex K) := old.take n ++ List.replicate (n - old.length) MdcVertex.new

/-- `buildLeaf` (mdc_octree.cpp:340-398) for a node whose `m_vertices` is `old`; `mdcBuildLeaf` is the case of an empty vector. -/
def mdcBuildLeafKeep (env : DcEnv K) (g : Grid K) (old : List (MdcVertex K)) (depth : Nat) (lo : IVec3) (s : Qef K 3 × MdcHeap K) :
    Option ((Qef K 3 × MdcHeap K) × MdcNode) := do
  let idx ← g.pointToIndex lo
  let ms ← g.materialsOfCell idx
  let corners : Fin 8 → Material := fun i => ms.getD i .Empty
  let mask := mdcMask corners
  let q := s.1.reset
  let st ← (List.finRange 12).foldlM (mdcLeafEdge env g lo mask)
    ⟨fun _ => q, fun _ => FilterFast.new, fun _ => ⟨0, 0, 0⟩, fun _ => false, 0⟩
  let vs ← (List.range st.cnt).mapM fun i =>
    if h : i < 4 then ((resizeVec old st.cnt)[i]?).bind (mdcSolveVertex env lo 0 (st.q ⟨i, h⟩) (st.filter ⟨i, h⟩) (st.avg ⟨i, h⟩)) else none
  some ((q, s.2 ++ vs), .leaf ⟨depth, corners, mask, List.range' s.2.length st.cnt⟩)

/-- `buildNode` (mdc_octree.cpp:326-338) of the root. -/
def mdcBuildRoot (env : DcEnv K) (g : Grid K) (old : List (MdcVertex K)) : (k : Nat) → (depth : Nat) → IVec3 → Qef K 3 × MdcHeap K →
    Option ((Qef K 3 × MdcHeap K) × MdcNode)
  | 0, depth, lo, s => mdcBuildLeafKeep env g old depth lo s
  | k + 1, depth, lo, s => mdcBuildNode env g (k + 1) depth lo s

/-- `clusterCell` after the recursive calls (mdc_octree.cpp:249-292) for a node whose `m_vertices` is `old`; `mdcClusterNode` is the case of
an empty vector. -/
def mdcClusterNodeKeep (env : DcEnv K) (old : List (MdcVertex K)) (ch : Fin 8 → MdcNode) (lo : IVec3) (k : Nat) (q : Qef K 3) (heap : MdcHeap K) :
    Option ((Qef K 3 × MdcHeap K) × List Nat) := do
  let s ← (mdcTrav.cellCalls ch).foldlM mdcClusterCall ⟨heap, DSU.mk' 0, []⟩
  let r ← mdcRenumber s.dsu
  let base := s.heap.length
  let q := q.reset
  let m ← s.vertices.foldlM (mdcMergeStep env r.setIdx base)
    ⟨s.heap ++ resizeVec old r.cnt, List.replicate r.cnt q, List.replicate r.cnt FilterFast.new,
      List.replicate r.cnt ⟨0, 0, 0⟩⟩
  let heap ← (List.range r.cnt).foldlM (mdcFinishStep env lo k base m) m.heap
  some ((q, heap), List.range' base r.cnt)

/-- `clusterCell` (mdc_octree.cpp:239-293) of the root. -/
def mdcClusterRoot (env : DcEnv K) (old : List (MdcVertex K)) : MdcNode → IVec3 → Nat → Qef K 3 × MdcHeap K → Option ((Qef K 3 × MdcHeap K) × MdcNode)
  | .leaf l, _, _, s => some (s, .leaf l)
  | .inner d ch, lo, k, s =>
    match threadM 8 (fun i s => mdcClusterCell env (ch i) (childCorner lo (k - 1) i) (k - 1) s) s with
    | none => none
    | some (s, ch) =>
      match mdcClusterNodeKeep env old ch lo k s.1 s.2 with
      | none => none
      | some (s, vs) => some (s, .inner (d.1, vs) ch)

/-- `build` (mdc_octree.cpp:299-312) of an octree that may have been used before. -/
def MdcOctree.rebuild (env : DcEnv K) (o : MdcOctree K) (g : Grid K) (solver : Qef K 3) : Option (Qef K 3 × MdcOctree K) :=
  match o.kept with
  | none => none
  | some old =>
    match mdcBuildRoot env g old o.level 0 (rootCorner o.level) (solver, []) with
    | none => none
    | some (s, root) =>
      match mdcClusterRoot env old root (rootCorner o.level) o.level s with
      | none => none
      | some (s, root) => some (s.1, { o with root := root, heap := s.2 })

/-- The octree after `build` has ended with an exception (mdc_octree.cpp:307-311): the root is a leaf; its vector may already have
been resized, the elements are `vs`. -/
def MdcOctree.failed (o : MdcOctree K) (corners : Fin 8 → Material) (mask : Nat) (vs : List (MdcVertex K)) : MdcOctree K :=
  { o with root := .leaf ⟨0, corners, mask, List.range' 0 vs.length⟩, heap := vs }

end
end Isomesh
