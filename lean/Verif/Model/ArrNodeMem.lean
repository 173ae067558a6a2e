import Verif.Model.DcNodeMem

/-! Memory model of `MDC_OctreeNode` and `DMC_OctreeNode` (include/isomesh/data/mdc_octree_node.hpp, dmc_octree_node.hpp,
src/data/mdc_octree_node.cpp, dmc_octree_node.cpp) and of the parts of `MDC_Octree::build` and `DMC_Octree::build` that create
and destroy nodes, with exceptions.

The eight children of a node are one array (`new ...[8]`), a block of the memory.  Allocations fail with `std::bad_alloc` when
the budget is used up: the budget is the crash point.  The two classes differ in a few operations, which are given by
`ArrOps`; everything else is the same code in both.

Simplifications: addresses are not reused (so every use of a freed block is noticed).  The root node is a member of the octree
object; it is element 0 of a block that is never freed by the octree.  Vectors free their own memory; what they (and other
local objects) allocate only counts against the budget.  Which nodes are subdivided (`split`) and how much is allocated
elsewhere (`leafAllocs`, `final`) depends on the field or grid and is arbitrary here (see `Verif.Model.MdcOctree` and
`Verif.Model.DmcOctree` for the real decisions).  `m_depth` is left out. -/

namespace Isomesh

/-- What distinguishes the two classes of nodes. -/
structure ArrOps (N : Type) where
  /-- a node after construction -/
  new : N
  /-- `!isSubdivided ()` -/
  isLeaf : N → Bool
  /-- the pointer to the children -/
  kids : N → RawPtr
  /-- the node after the assignments at the end of `collapse` -/
  unlink : N → N
  /-- the node after the assignments in `subdivide` -/
  link : Nat → N → N
  /-- the node after leaf data has been written -/
  data : N → N
  /-- `collapse` does nothing to a leaf -/
  guarded : Bool
  /-- `subdivide` of a subdivided node throws -/
  throws : Bool

/-- `MDC_OctreeNode` (mdc_octree_node.hpp:58-68): the flag and the word shared by `m_children` and `m_corners`. -/
structure MdcRaw where
  isLeaf : Bool
  word : RawPtr

/-- mdc_octree_node.hpp:40, 59-63; mdc_octree_node.cpp:60-76. -/
def mdcOps : ArrOps MdcRaw where
  new := ⟨true, .null⟩
  isLeaf n := n.isLeaf
  kids n := n.word
  unlink _ := ⟨true, .null⟩
  link b _ := ⟨false, .node b⟩
  data n := { n with word := .junk }
  guarded := true
  throws := false

/-- `DMC_OctreeNode` (dmc_octree_node.hpp:13-29; dmc_octree_node.cpp:10-26): the pointer `children`. -/
def dmcOps : ArrOps RawPtr where
  new := .null
  isLeaf n := match n with
    | .null => true
    | _ => false
  kids n := n
  unlink _ := .null
  link b _ := .node b
  data n := n
  guarded := false
  throws := true

/-- The memory (`none`: not allocated), the next address and the number of allocations that succeed. -/
structure ArrState (N : Type) where
  mem : Nat → Option (Fin 8 → N)
  next : Nat
  budget : Nat

/-- Outcome of an operation: normal end, exception, or undefined behaviour. -/
inductive ArrRes (N : Type) where
  | ok (s : ArrState N)
  | thrown (s : ArrState N)
  | ub

/-- Sequencing. -/
def ArrRes.andThen {N : Type} (r : ArrRes N) (f : ArrState N → ArrRes N) : ArrRes N :=
  match r with
  | .ok s => f s
  | .thrown s => .thrown s
  | .ub => .ub

/-- A loop. -/
def arrFor {N A : Type} (f : A → ArrState N → ArrRes N) : List A → ArrState N → ArrRes N
  | [], s => .ok s
  | x :: xs, s => (f x s).andThen (arrFor f xs)

/-- Writes element `i` of a block; `none`: the block does not exist. -/
def ArrState.write {N : Type} (s : ArrState N) (b : Nat) (i : Fin 8) (n : N) : Option (ArrState N) :=
  match s.mem b with
  | none => none
  | some ns => some { s with mem := Function.update s.mem b (some (Function.update ns i n)) }

/-- Frees a block. -/
def ArrState.free {N : Type} (s : ArrState N) (b : Nat) : ArrState N := { s with mem := Function.update s.mem b none }

variable {N : Type}

mutual

/-- `delete[] p`: the destructors of the elements, last one first, then the block is freed. -/
def arrDelete (ops : ArrOps N) (p : RawPtr) (s : ArrState N) : Option (ArrState N) :=
  match p with
  | .null => some s
  | .junk => none
  | .node b =>
    match s.mem b with
    | none => none
    | some _ => do
      let s ← (List.finRange 8).reverse.foldlM (fun s i => arrCollapse ops b i s) s
      some (s.free b)
partial_fixpoint

/-- `collapse` of element `i` of block `b` (mdc_octree_node.cpp:70-76, dmc_octree_node.cpp:23-26); the destructors only call it
(mdc_octree_node.cpp:56-58, dmc_octree_node.cpp:13-15). -/
def arrCollapse (ops : ArrOps N) (b : Nat) (i : Fin 8) (s : ArrState N) : Option (ArrState N) :=
  match s.mem b with
  | none => none
  | some ns =>
    if ops.guarded && ops.isLeaf (ns i) then some s
    else do
      let s ← arrDelete ops (ops.kids (ns i)) s
      s.write b i (ops.unlink (ns i))
partial_fixpoint

end

/-- `subdivide` (mdc_octree_node.cpp:60-68, dmc_octree_node.cpp:17-21). -/
def arrSubdivide (ops : ArrOps N) (b : Nat) (i : Fin 8) (s : ArrState N) : ArrRes N :=
  match s.mem b with
  | none => .ub
  | some ns =>
    if ops.isLeaf (ns i) then
      if s.budget = 0 then .thrown s
      else
        let s' : ArrState N := ⟨Function.update s.mem s.next (some fun _ => ops.new), s.next + 1, s.budget - 1⟩
        match s'.write b i (ops.link s.next (ns i)) with
        | none => .ub
        | some s => .ok s
    else if ops.throws then .thrown s else .ok s

/-- `m` allocations that do not concern nodes. -/
def arrWork (m : Nat) (s : ArrState N) : ArrRes N :=
  if m ≤ s.budget then .ok { s with budget := s.budget - m } else .thrown { s with budget := 0 }

/-- What depends on the grid or field. -/
structure ArrPlan where
  split : IVec3 → Nat → Bool
  leafAllocs : IVec3 → Nat → Nat
  final : Nat

/-- Writing a leaf (`buildLeaf`, mdc_octree.cpp:340-398; `generateDualVertex`, dmc_octree.cpp:402-490). -/
def arrLeaf (ops : ArrOps N) (m : Nat) (b : Nat) (i : Fin 8) (s : ArrState N) : ArrRes N :=
  match s.mem b with
  | none => .ub
  | some ns =>
    match s.write b i (ops.data (ns i)) with
    | none => .ub
    | some s => arrWork m s

/-- A call with argument `node->child (i)` (mdc_octree.cpp:336, dmc_octree.cpp:383, 398). -/
def arrChild (ops : ArrOps N) (f : Nat → ArrState N → ArrRes N) (b : Nat) (i : Fin 8) (s : ArrState N) : ArrRes N :=
  match s.mem b with
  | none => .ub
  | some ns =>
    match ops.kids (ns i) with
    | .node c => f c s
    | _ => .ub

/-- `buildNode` (mdc_octree.cpp:326-338, where every node of size greater than 1 is split; dmc_octree.cpp:364-400) for element `i`
of block `b`, of size `2 ^ k`.  (`generateDualVertex` may have been called before the node is split; it does not allocate.) -/
def arrBuildNode (ops : ArrOps N) (plan : ArrPlan) : (k : Nat) → IVec3 → Nat → Fin 8 → ArrState N → ArrRes N
  | 0, lo, b, i, s => arrLeaf ops (plan.leafAllocs lo 0) b i s
  | k + 1, lo, b, i, s =>
    if plan.split lo (k + 1) then
      (arrSubdivide ops b i s).andThen
        (arrFor (fun j s => arrChild ops (fun c s => arrBuildNode ops plan k (childCorner lo k j) c j s) b i s) (List.finRange 8))
    else arrLeaf ops (plan.leafAllocs lo (k + 1)) b i s

/-- `build` (mdc_octree.cpp:299-312, where `clusterCell` only needs `final` allocations; dmc_octree.cpp:21-39, without `final`) of an
octree of size `2 ^ level` whose root is element 0 of block `r`. -/
def arrBuild (ops : ArrOps N) (plan : ArrPlan) (level : Nat) (lo : IVec3) (r : Nat) (s : ArrState N) : ArrRes N :=
  match arrCollapse ops r 0 s with
  | none => .ub
  | some s =>
    match (arrBuildNode ops plan level lo r 0 s).andThen (arrWork plan.final) with
    | .ok s => .ok s
    | .ub => .ub
    | .thrown s =>
      match arrCollapse ops r 0 s with
      | none => .ub
      | some s => .thrown s

end Isomesh
