import Verif.Model.MeshField

/-! Memory model of `TriangleOctree` (src/private/octree.hpp, src/private/octree.cpp) and of `MeshField`
(include/isomesh/field/mesh_field.hpp, src/field/mesh_field.cpp), with exceptions.

A node is a cell of the memory together with the buffer of its vector.  Every allocation takes one unit of a budget and fails with
`std::bad_alloc` if there is none left: the budget is the crash point.  Whether `push_back` allocates depends on the number of
elements and on the growth policy of `std::vector`, an arbitrary function `grows` here.

Simplifications: addresses are not reused (so every use of a freed node is noticed); `float` is `ℝ`.  A result is `none` if an invalid
pointer is followed, `some (true, _)` after a normal end and `some (false, _)` after an exception. -/

namespace Isomesh

noncomputable section
open scoped Classical

/-- `TriangleOctree` (octree.hpp:39-45). -/
structure TriRaw where
  pos : Vec3 ℝ
  half : ℝ
  isLeaf : Bool
  level : Nat
  child : Fin 8 → Option Nat
  tris : List Tri

/-- The constructor (octree.cpp:19-28). -/
def TriRaw.new (half : ℝ) (level : Nat) (pos : Vec3 ℝ) : TriRaw := ⟨pos, half, true, level, fun _ => none, []⟩

/-- The memory (`none`: not allocated), the next address and the number of allocations that succeed. -/
structure TriMem where
  mem : Nat → Option TriRaw
  next : Nat
  budget : Nat

/-- Writes a node. -/
def TriMem.put (s : TriMem) (a : Nat) (n : TriRaw) : TriMem := { s with mem := Function.update s.mem a (some n) }

/-- Frees a node. -/
def TriMem.free (s : TriMem) (a : Nat) : TriMem := { s with mem := Function.update s.mem a none }

/-- A successful `new`. -/
def TriMem.alloc (s : TriMem) (n : TriRaw) : TriMem := ⟨Function.update s.mem s.next (some n), s.next + 1, s.budget - 1⟩

/-- `m_triangles.push_back` (octree.cpp:101): the vector is unchanged if the allocation fails. -/
def memPush (grows : Nat → Bool) (a : Nat) (tri : Tri) (s : TriMem) : Option (Bool × TriMem) :=
  match s.mem a with
  | none => none
  | some n =>
    let s' := s.put a { n with tris := n.tris ++ [tri] }
    if grows n.tris.length then
      if s.budget = 0 then some (false, s) else some (true, { s' with budget := s.budget - 1 })
    else some (true, s')

mutual

/-- `insert` (octree.cpp:98-113). -/
def memInsert (grows : Nat → Bool) (a : Nat) (tri : Tri) (s : TriMem) : Option (Bool × TriMem) :=
  match s.mem a with
  | none => none
  | some n =>
    if n.isLeaf then
      if n.tris.length < splitTrianglesLimit ∨ n.level ≥ triMaxDepth then memPush grows a tri s
      else do
        let r ← memSplit grows a n.tris (s.put a { n with isLeaf := false })
        if r.1 then
          match r.2.mem a with
          | none => none
          | some n => some (true, r.2.put a { n with tris := [] })
        else some r
    else memAsNode grows a tri s
partial_fixpoint

/-- The loop over `m_triangles` in `insert` (octree.cpp:105-106), which is not changed by the loop. -/
def memSplit (grows : Nat → Bool) (a : Nat) (tris : List Tri) (s : TriMem) : Option (Bool × TriMem) :=
  match tris with
  | [] => some (true, s)
  | t :: ts => do
    let r ← memAsNode grows a t s
    if r.1 then memSplit grows a ts r.2 else some r
partial_fixpoint

/-- `insertAsNode` (octree.cpp:121-133). -/
def memAsNode (grows : Nat → Bool) (a : Nat) (tri : Tri) (s : TriMem) : Option (Bool × TriMem) :=
  match s.mem a with
  | none => none
  | some n => do
    let i1 := triIndex n.pos n.half tri.a
    let i2 := triIndex n.pos n.half tri.b
    let i3 := triIndex n.pos n.half tri.c
    let r ← memByIndex grows a i1 tri s
    let r ← if r.1 ∧ i2 ≠ i1 then memByIndex grows a i2 tri r.2 else some r
    if r.1 ∧ i3 ≠ i2 ∧ i3 ≠ i1 then memByIndex grows a i3 tri r.2 else some r
partial_fixpoint

/-- `insertByIndex` (octree.cpp:135-145). -/
def memByIndex (grows : Nat → Bool) (a : Nat) (idx : Fin 8) (tri : Tri) (s : TriMem) : Option (Bool × TriMem) :=
  match s.mem a with
  | none => none
  | some n =>
    match n.child idx with
    | some c => memInsert grows c tri s
    | none =>
      if s.budget = 0 then some (false, s)
      else
        memInsert grows s.next tri ((s.alloc (TriRaw.new (n.half / 2) (n.level + 1) (triSubpos n.pos n.half idx))).put a
          { n with child := Function.update n.child idx (some s.next) })
partial_fixpoint

end

/-- `delete` with the destructor (octree.cpp:30-35). -/
def memDelete (a : Nat) (s : TriMem) : Option TriMem :=
  match s.mem a with
  | none => none
  | some n => do
    let s ← if n.isLeaf then some s
      else (List.finRange 8).foldlM (fun s i =>
        match n.child i with
        | none => some s
        | some c => memDelete c s) s
    match s.mem a with
    | none => none
    | some _ => some (s.free a)
partial_fixpoint

/-- `nearTriangleImpl` (octree.cpp:70-96). -/
def memNear (mem : Nat → Option TriRaw) (p : Vec3 ℝ) (a : Nat) (r : NearState) : Option NearState :=
  match mem a with
  | none => none
  | some n =>
    if distanceToNode n.pos n.half p > r.bound then some r
    else if n.isLeaf then some (n.tris.foldl (nearStep p) r)
    else do
      let r ← match n.child (triIndex n.pos n.half p) with
        | none => some r
        | some c => memNear mem p c r
      (List.finRange 8).foldlM (fun r i =>
        if i ≠ triIndex n.pos n.half p then
          match n.child i with
          | none => some r
          | some c => memNear mem p c r
        else some r) r
partial_fixpoint

/-- `MeshField` (mesh_field.hpp:35) with the memory; the destructor is the implicit one, which frees nothing. -/
structure FieldMem where
  root : Option Nat
  heap : TriMem

/-- The loop of `load` over the triangles from number `i` on, `n` of them (mesh_field.cpp:66-68). -/
def fieldFill (grows : Nat → Bool) (data : PlyData ℝ) (a : Nat) : (n i : Nat) → TriMem → Option (Bool × TriMem)
  | 0, _, s => some (true, s)
  | n + 1, i, s => do
    let t ← data.triangle i
    let r ← memInsert grows a (Tri.make t.1 t.2.1 t.2.2) s
    if r.1 then fieldFill grows data a n (i + 1) r.2 else some r

/-- `if (m_root) delete m_root` (mesh_field.cpp:60-61). -/
def fieldDelete (root : Option Nat) (heap : TriMem) : Option TriMem :=
  match root with
  | none => some heap
  | some a => memDelete a heap

/-- `load` (mesh_field.cpp:21-69); `file` is `none` if the file cannot be opened or parsed; `ply` is the number of allocations made by
`PlyData::load`. -/
def FieldMem.load (grows : Nat → Bool) (fltMax fltMin : ℝ) (ply : Nat) (file : Option (PlyFile ℝ)) (reverseLoadedOrder : Bool) (m : FieldMem) :
    Option (Bool × FieldMem) :=
  match file with
  | none => some (false, m)
  | some f =>
    if m.heap.budget < ply then some (false, { m with heap := { m.heap with budget := 0 } })
    else do
      let heap : TriMem := { m.heap with budget := m.heap.budget - ply }
      let data ← PlyData.load fltMax fltMin f
      let data := if reverseLoadedOrder then data.setWindingOrder false else data
      let ((minX, maxX), (minY, maxY), (minZ, maxZ)) ← meshFieldBox fltMax fltMin data
      let treeSize := max (maxX - minX) (max (maxY - minY) (maxZ - minZ))
      let heap ← fieldDelete m.root heap
      if heap.budget = 0 then some (false, ⟨m.root, heap⟩)
      else do
        let r ← fieldFill grows data heap.next data.trianglesCount 0 (heap.alloc (TriRaw.new (treeSize / 2) 0 ⟨minX, minY, minZ⟩))
        some (r.1, ⟨some heap.next, r.2⟩)

/-- Result of `value` and `grad`, which are `noexcept`: a failed allocation ends the program. -/
inductive FieldAnswer (α : Type) where
  | terminate
  | answer (v : α)

/-- `value` (mesh_field.cpp:71-76, octree.cpp:49-68) once its allocations have succeeded. -/
def memValue (fltMax : ℝ) (junk : Tri) (mem : Nat → Option TriRaw) (a : Nat) (x y z : ℝ) : Option ℝ := do
  let r ← memNear mem ⟨x, y, z⟩ a ⟨fltMax, junk, 0⟩
  some (Real.sqrt r.bound * (r.sign : ℝ))

/-- `value` (mesh_field.cpp:71-76); the three shared pointers (octree.cpp:50-52) take five allocations. -/
def FieldMem.value (fltMax : ℝ) (junk : Tri) (m : FieldMem) (x y z : ℝ) : Option (FieldAnswer ℝ) :=
  match m.root with
  | none => none
  | some a =>
    match m.heap.mem a with
    | none => none
    | some _ =>
      if m.heap.budget < 5 then some .terminate
      else do
        let v ← memValue fltMax junk m.heap.mem a x y z
        some (.answer v)

/-- `grad` (mesh_field.cpp:78-89): six calls of `value`. -/
def FieldMem.grad (fltMax : ℝ) (junk : Tri) (m : FieldMem) (x y z : ℝ) : Option (FieldAnswer (Vec3 ℝ)) :=
  match m.root with
  | none => none
  | some a =>
    match m.heap.mem a with
    | none => none
    | some n =>
      if m.heap.budget < 30 then some .terminate
      else do
        let h := n.half / 500
        let x1 ← memValue fltMax junk m.heap.mem a (x - h) y z
        let x2 ← memValue fltMax junk m.heap.mem a (x + h) y z
        let y1 ← memValue fltMax junk m.heap.mem a x (y - h) z
        let y2 ← memValue fltMax junk m.heap.mem a x (y + h) z
        let z1 ← memValue fltMax junk m.heap.mem a x y (z - h)
        let z2 ← memValue fltMax junk m.heap.mem a x y (z + h)
        some (.answer ⟨(x2 - x1) / 2 / h, (y2 - y1) / 2 / h, (z2 - z1) / 2 / h⟩)

end
end Isomesh
