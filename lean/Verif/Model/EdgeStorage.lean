import Verif.Basic

/-! Model of src/data/grid_edge_storage.cpp and include/isomesh/data/grid_edge_storage.hpp. -/

namespace Isomesh

/-- `UniformGridEdge` as constructed (grid_edge_storage.hpp:26-75, grid_edge_storage.cpp:12-33).
Simplification: the constructor compresses the gradient into two normal components and a sign bit; that
numeric part is modelled separately in `Model/EdgeNormal.lean`; here the gradient is kept as given.
The coordinates are `int16_t` in the code; the constructor asserts they fit (see `fitsInt16`). -/
structure GridEdge (K : Type) where
  lesser : IVec3
  gradient : Vec3 K
  offset : K
  axis : Axis
  lesserSolid : Bool
  material : Material

/-- The constructor's assertion that a coordinate fits `int16_t` (grid_edge_storage.cpp:15-18). -/
def fitsInt16 (v : Int) : Bool := decide (-32768 ≤ v) && decide (v ≤ 32767)

/-- `lesserEndpoint` (grid_edge_storage.cpp:49-51). -/
def GridEdge.lesserEndpoint {K : Type} (e : GridEdge K) : IVec3 := e.lesser

/-- `biggerEndpoint` (grid_edge_storage.cpp:53-57). -/
def GridEdge.biggerEndpoint {K : Type} (e : GridEdge K) : IVec3 :=
  match e.axis with
  | .X => ⟨e.lesser.x + 1, e.lesser.y, e.lesser.z⟩
  | .Y => ⟨e.lesser.x, e.lesser.y + 1, e.lesser.z⟩
  | .Z => ⟨e.lesser.x, e.lesser.y, e.lesser.z + 1⟩

/-- `surfacePoint` (grid_edge_storage.cpp:43-47). -/
def GridEdge.surfacePoint {K : Type} [Add K] [IntCast K] (e : GridEdge K) : Vec3 K :=
  match e.axis with
  | .X => ⟨(e.lesser.x : K) + e.offset, e.lesser.y, e.lesser.z⟩
  | .Y => ⟨e.lesser.x, (e.lesser.y : K) + e.offset, e.lesser.z⟩
  | .Z => ⟨e.lesser.x, e.lesser.y, (e.lesser.z : K) + e.offset⟩

/-- `addEdge` on a storage (grid_edge_storage.hpp:86-87 `emplace_back`) followed by the constructor with its
assertions (grid_edge_storage.cpp:12-33); `none` when an assertion fails. -/
def addEdge {K : Type} (s : List (GridEdge K)) (e : GridEdge K) : Option (List (GridEdge K)) :=
  if fitsInt16 e.lesser.x && fitsInt16 e.lesser.y && fitsInt16 e.lesser.z then some (s ++ [e]) else none

/-- `edgeLess` (grid_edge_storage.cpp:59-70), on lesser endpoints. -/
def edgeLess (a b : IVec3) : Bool :=
  if a.y < b.y then true
  else if a.y = b.y then
    if a.x < b.x then true
    else if a.x = b.x then decide (a.z < b.z)
    else false
  else false

/-- `sortEdges` (grid_edge_storage.cpp:72-74). `std::sort` is unspecified among equivalent elements; modelled by a
stable merge sort with `¬ edgeLess b a` as the "≤" test.  The theorems about it use only that the result is a sorted
permutation. -/
def sortEdges {K : Type} (s : List (GridEdge K)) : List (GridEdge K) :=
  s.mergeSort (fun a b => !edgeLess b.lesser a.lesser)

/-- `std::lower_bound` over `[first, first+len)` with predicate `less` = "element is less than the sample":
the libstdc++ halving loop (called at grid_edge_storage.cpp:88,108). -/
def lowerBound {α : Type} (l : List α) (less : α → Bool) (first len : Nat) : Nat :=
  if _h : len = 0 then first
  else
    let half := len / 2
    let mid := first + half
    match l[mid]? with
    | none => mid
    | some a =>
      if less a then lowerBound l less (mid + 1) (len - half - 1)
      else lowerBound l less first half
termination_by len
decreasing_by all_goals omega

/-- `findEdge` (grid_edge_storage.cpp:76-94 and 96-114): `none` is `end ()`, `some i` the iterator at position `i`. -/
def findEdge {K : Type} (s : List (GridEdge K)) (x y z : Int) : Option Nat :=
  if x > 32767 ∨ y > 32767 ∨ z > 32767 then none
  else if x < -32768 ∨ y < -32768 ∨ z < -32768 then none
  else
    let sample : IVec3 := ⟨x, y, z⟩
    let iter := lowerBound s (fun e => edgeLess e.lesser sample) 0 s.length
    match s[iter]? with
    | none => none
    | some e =>
      if e.lesser.x ≠ x ∨ e.lesser.y ≠ y ∨ e.lesser.z ≠ z then none
      else some iter

end Isomesh
