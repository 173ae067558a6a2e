import Verif.Model.DcOctree
import Mathlib.Logic.Function.Basic

/-! Memory model of `DC_OctreeNode` (include/isomesh/data/dc_octree_node.hpp, src/data/dc_octree_node.cpp) and of the parts of
`DC_Octree::build` (src/data/dc_octree.cpp) that create and destroy nodes, with exceptions.

A node is a cell of the memory.  The eight pointers `children` share their storage with `leaf_data`; writing the latter leaves
words that are no pointers to nodes (`junk`).  `new` fails with `std::bad_alloc` when the budget of allocations is used up:
the budget is the crash point.  Everything else that is called by `build` is `noexcept` or does not allocate.

Simplifications: addresses are not reused (so every use of a freed node is noticed); which nodes are collapsed depends on the
grid and is an arbitrary function `decide` here (see `Verif.Model.DcOctree` for the real one), and so is the set of words
overwritten by leaf data (`words`); `m_depth` is left out. -/

namespace Isomesh

/-- One of the eight words `children[i]`. -/
inductive RawPtr where
  | null
  | node (a : Nat)
  | junk

/-- `DC_OctreeNode` (dc_octree_node.hpp:32-45). -/
structure RawNode where
  isLeaf : Bool
  ptr : Fin 8 → RawPtr

/-- The constructor (dc_octree_node.cpp:10-13). -/
def RawNode.new : RawNode := ⟨true, fun _ => .null⟩

/-- The memory (`none`: not allocated), the next address and the number of allocations that succeed. -/
structure RawState where
  mem : Nat → Option RawNode
  next : Nat
  budget : Nat

/-- Writes the cell of a node. -/
def RawState.put (s : RawState) (a : Nat) (n : RawNode) : RawState := { s with mem := Function.update s.mem a (some n) }

/-- Frees the cell of a node. -/
def RawState.free (s : RawState) (a : Nat) : RawState := { s with mem := Function.update s.mem a none }

/-- Outcome of an operation: normal end, exception, or undefined behaviour. -/
inductive RawRes where
  | ok (s : RawState)
  | thrown (s : RawState)
  | ub

/-- Sequencing. -/
def RawRes.andThen (r : RawRes) (f : RawState → RawRes) : RawRes :=
  match r with
  | .ok s => f s
  | .thrown s => .thrown s
  | .ub => .ub

/-- A loop. -/
def rawFor {A : Type} (f : A → RawState → RawRes) : List A → RawState → RawRes
  | [], s => .ok s
  | x :: xs, s => (f x s).andThen (rawFor f xs)

mutual

/-- `delete p` with the destructor (dc_octree_node.cpp:15-18).  `none`: the pointer is invalid. -/
def rawDelete (p : RawPtr) (s : RawState) : Option RawState :=
  match p with
  | .null => some s
  | .junk => none
  | .node a =>
    match s.mem a with
    | none => none
    | some n =>
      if n.isLeaf then some (s.free a)
      else do
          let s ← rawCollapse a s
          some (s.free a)
partial_fixpoint

/-- `collapse` (dc_octree_node.cpp:30-38) of a subdivided node (every caller has checked that). -/
def rawCollapse (a : Nat) (s : RawState) : Option RawState :=
  match s.mem a with
  | none => none
  | some n =>
    (List.finRange 8).foldlM (fun s i => do
      let n ← s.mem a
      let s ← rawDelete (n.ptr i) s
      let n ← s.mem a
      some (s.put a { n with ptr := Function.update n.ptr i .null })) (s.put a { n with isLeaf := true })
partial_fixpoint

end

/-- Body of the loop of `subdivide` (dc_octree_node.cpp:24-27). -/
def rawSubdivideStep (a : Nat) (i : Fin 8) (s : RawState) : RawRes :=
  if s.budget = 0 then .thrown s
  else
    let s : RawState := ⟨Function.update s.mem s.next (some RawNode.new), s.next + 1, s.budget - 1⟩
    match s.mem a with
    | none => .ub
    | some n => .ok (s.put a { n with ptr := Function.update n.ptr i (.node (s.next - 1)) })

/-- `subdivide` (dc_octree_node.cpp:20-28). -/
def rawSubdivide (a : Nat) (s : RawState) : RawRes :=
  match s.mem a with
  | none => .ub
  | some n => if n.isLeaf then rawFor (rawSubdivideStep a) (List.finRange 8) (s.put a { n with isLeaf := false }) else .thrown s

/-- Writing `leaf_data`: the words given by `words` do not hold pointers any more (dc_octree.cpp:336, 363-366, 379, 409-412). -/
def rawWriteLeaf (words : Fin 8 → Bool) (a : Nat) (s : RawState) : RawRes :=
  match s.mem a with
  | none => .ub
  | some n => .ok (s.put a { n with ptr := fun i => if words i then .junk else n.ptr i })

/-- What `build` knows about the grid: which nodes can be collapsed and which words are overwritten by their leaf data. -/
structure RawPlan where
  decide : IVec3 → Nat → Bool
  words : IVec3 → Nat → Fin 8 → Bool

/-- `node->children[i]->isSubdivided ()` for some child (dc_octree.cpp:325-328); `none`: an invalid pointer is followed. -/
def rawAnyInner (s : RawState) (n : RawNode) : List (Fin 8) → Option Bool
  | [] => some false
  | i :: is =>
    match n.ptr i with
    | .node c =>
      match s.mem c with
      | none => none
      | some m => if m.isLeaf then rawAnyInner s n is else some true
    | _ => none

/-- The end of `buildNode`: the children are dropped if all of them are leaves and the node can be collapsed
(dc_octree.cpp:320-367). -/
def rawFinish (plan : RawPlan) (lo : IVec3) (k : Nat) (a : Nat) (s : RawState) : RawRes :=
  match s.mem a with
  | none => .ub
  | some n =>
    match rawAnyInner s n (List.finRange 8) with
    | none => .ub
    | some true => .ok s
    | some false =>
      if plan.decide lo k then
        match rawCollapse a s with
        | none => .ub
        | some s => rawWriteLeaf (plan.words lo k) a s
      else .ok s

/-- A call with argument `node->children[i]` (dc_octree.cpp:318). -/
def rawChild (f : Nat → RawState → RawRes) (a : Nat) (i : Fin 8) (s : RawState) : RawRes :=
  match s.mem a with
  | none => .ub
  | some n =>
    match n.ptr i with
    | .node c => f c s
    | _ => .ub

/-- `buildNode` (dc_octree.cpp:308-369) for the node at address `a` of size `2 ^ k`. -/
def rawBuildNode (plan : RawPlan) : (k : Nat) → IVec3 → Nat → RawState → RawRes
  | 0, lo, a, s => rawWriteLeaf (plan.words lo 0) a s
  | k + 1, lo, a, s =>
    ((rawSubdivide a s).andThen (rawFor (fun i s => rawChild (rawBuildNode plan k (childCorner lo k i)) a i s) (List.finRange 8))).andThen (rawFinish plan lo (k + 1) a)

/-- `if (m_root.isSubdivided ()) m_root.collapse ()` (dc_octree.cpp:32-33, 38-39). -/
def rawClear (r : Nat) (s : RawState) : Option RawState :=
  match s.mem r with
  | none => none
  | some n => if n.isLeaf then some s else rawCollapse r s

/-- `build` (dc_octree.cpp:21-42) of an octree of size `2 ^ level` with root at `r`. -/
def rawBuild (plan : RawPlan) (level : Nat) (lo : IVec3) (r : Nat) (s : RawState) : RawRes :=
  match rawClear r s with
  | none => .ub
  | some s =>
    match rawBuildNode plan level lo r s with
    | .ok s => .ok s
    | .ub => .ub
    | .thrown s =>
      match rawClear r s with
      | none => .ub
      | some s => .thrown s

end Isomesh
