import Verif.Model.Mesh
import Mathlib.Analysis.Real.Sqrt
import Mathlib.Logic.Function.Basic

/-! Model of `TriangleOctree` (src/private/octree.hpp, src/private/octree.cpp) and `Triangle` (src/private/triangle.hpp).

Simplifications: `float` is `ℝ`; `int` distances and signs are `Int`; a null child pointer is the constructor `null`. -/

namespace Isomesh

noncomputable section
open scoped Classical

/-- `Triangle` (triangle.hpp:18-19). -/
structure Tri where
  a : Vec3 ℝ
  b : Vec3 ℝ
  c : Vec3 ℝ
  normal : Vec3 ℝ

/-- `glm::normalize`: division by the length. -/
def unitVec (v : Vec3 ℝ) : Vec3 ℝ := ⟨v.x / Real.sqrt (v.dot v), v.y / Real.sqrt (v.dot v), v.z / Real.sqrt (v.dot v)⟩

/-- The constructor of `Triangle` (triangle.hpp:11-16). -/
def Tri.make (a b c : Vec3 ℝ) : Tri := ⟨a, b, c, unitVec ((a.sub b).cross (a.sub c))⟩

/-- `TriangleOctree` (octree.hpp:39-45): `null` is a null pointer; a node has a position, half of its size and a level, and
is a leaf with triangles or has eight children. -/
inductive TriTree where
  | null
  | leaf (pos : Vec3 ℝ) (half : ℝ) (level : Nat) (tris : List Tri)
  | inner (pos : Vec3 ℝ) (half : ℝ) (level : Nat) (ch : Fin 8 → TriTree)

/-- The constructor (octree.cpp:19-28). -/
def TriTree.new (half : ℝ) (level : Nat) (pos : Vec3 ℝ) : TriTree := .leaf pos half level []

/-- `index` (octree.cpp:37-47): `X_SIGN_MASK` is 1, `Y_SIGN_MASK` is 2, `Z_SIGN_MASK` is 4. -/
def triIndex (pos : Vec3 ℝ) (half : ℝ) (p : Vec3 ℝ) : Fin 8 :=
  Fin.ofNat 8 ((if p.x ≥ pos.x + half then 1 else 0) ||| (if p.y ≥ pos.y + half then 2 else 0) |||
    (if p.z ≥ pos.z + half then 4 else 0))

/-- `subpos` of `insertByIndex` (octree.cpp:137-140). -/
def triSubpos (pos : Vec3 ℝ) (half : ℝ) (i : Fin 8) : Vec3 ℝ :=
  ⟨pos.x + (if i.val &&& 1 ≠ 0 then 1 else 0) * half, pos.y + (if i.val &&& 2 ≠ 0 then 1 else 0) * half,
    pos.z + (if i.val &&& 4 ≠ 0 then 1 else 0) * half⟩

/-- `SPLIT_TRIANGLES_LIMIT` (octree.hpp:37). -/
def splitTrianglesLimit : Nat := 60

/-- `MAX_DEPTH` (octree.hpp:38). -/
def triMaxDepth : Nat := 15

mutual

/-- `insert` (octree.cpp:98-113); the triangle that triggers a split is not inserted.  `none`: a null pointer is followed. -/
def TriTree.insert (t : TriTree) (tri : Tri) : Option TriTree :=
  match t with
  | .null => none
  | .leaf pos half level tris =>
    if tris.length < splitTrianglesLimit ∨ level ≥ triMaxDepth then some (.leaf pos half level (tris ++ [tri]))
    else do
      let ch ← tris.foldlM (TriTree.insertAsNode pos half level) (fun _ => TriTree.null)
      some (.inner pos half level ch)
  | .inner pos half level ch => do
    let ch ← TriTree.insertAsNode pos half level ch tri
    some (.inner pos half level ch)
partial_fixpoint

/-- `insertAsNode` (octree.cpp:121-133), as a function of the children. -/
def TriTree.insertAsNode (pos : Vec3 ℝ) (half : ℝ) (level : Nat) (ch : Fin 8 → TriTree) (tri : Tri) : Option (Fin 8 → TriTree) := do
  let i1 := triIndex pos half tri.a
  let i2 := triIndex pos half tri.b
  let i3 := triIndex pos half tri.c
  let ch ← TriTree.insertByIndex pos half level ch i1 tri
  let ch ← if i2 ≠ i1 then TriTree.insertByIndex pos half level ch i2 tri else some ch
  if i3 ≠ i2 ∧ i3 ≠ i1 then TriTree.insertByIndex pos half level ch i3 tri else some ch
partial_fixpoint

/-- `insertByIndex` (octree.cpp:135-145). -/
def TriTree.insertByIndex (pos : Vec3 ℝ) (half : ℝ) (level : Nat) (ch : Fin 8 → TriTree) (idx : Fin 8) (tri : Tri) :
    Option (Fin 8 → TriTree) := do
  let child := match ch idx with
    | .null => TriTree.new (half / 2) (level + 1) (triSubpos pos half idx)
    | t => t
  let child ← TriTree.insert child tri
  some (Function.update ch idx child)
partial_fixpoint

end

/-- `distance2` (octree.cpp:15-17). -/
def distance2 (a b : Vec3 ℝ) : ℝ := (a.x - b.x) * (a.x - b.x) + (a.y - b.y) * (a.y - b.y) + (a.z - b.z) * (a.z - b.z)

/-- `sign` (octree.cpp:11-13). -/
def signOf (x : ℝ) : Int := if x > 0 then 1 else -1

/-- `glm::clamp (x, minVal, maxVal)`. -/
def glmClamp (x lo hi : ℝ) : ℝ := min (max x lo) hi

/-- `distanceToNode` (octree.cpp:198-205): the position, not the point, is clamped. -/
def distanceToNode (pos : Vec3 ℝ) (half : ℝ) (p : Vec3 ℝ) : ℝ :=
  distance2 ⟨glmClamp pos.x p.x (pos.x + 2 * half), glmClamp pos.y p.y (pos.y + 2 * half), glmClamp pos.z p.z (pos.z + 2 * half)⟩ p

/-- `s * v`. -/
def Vec3.smul (s : ℝ) (v : Vec3 ℝ) : Vec3 ℝ := ⟨s * v.x, s * v.y, s * v.z⟩

/-- `distance` (octree.cpp:157-196). -/
def triDistance (P : Vec3 ℝ) (tri : Tri) : ℝ × Int :=
  let AB := tri.b.sub tri.a
  let CA := tri.a.sub tri.c
  let d_ab := AB.dot (P.sub tri.a) / AB.dot AB
  let d_ca := CA.dot (P.sub tri.c) / CA.dot CA
  if d_ca ≥ 1 ∧ d_ab ≤ 0 then (distance2 tri.a P, signOf ((P.sub tri.a).dot tri.normal))
  else
    let BC := tri.c.sub tri.b
    let d_bc := BC.dot (P.sub tri.b) / BC.dot BC
    if d_ab ≥ 1 ∧ d_bc ≤ 0 then (distance2 tri.b P, signOf ((P.sub tri.b).dot tri.normal))
    else if d_bc ≥ 1 ∧ d_ca ≤ 0 then (distance2 tri.c P, signOf ((P.sub tri.c).dot tri.normal))
    else if (d_ab ≥ 0 ∧ d_ab ≤ 1) ∧ (AB.cross tri.normal).dot (P.sub tri.a) ≥ 0 then
      let K := tri.a.add (Vec3.smul d_ab AB)
      (distance2 K P, signOf ((P.sub K).dot tri.normal))
    else if (d_bc ≥ 0 ∧ d_bc ≤ 1) ∧ (BC.cross tri.normal).dot (P.sub tri.b) ≥ 0 then
      let K := tri.b.add (Vec3.smul d_bc BC)
      (distance2 K P, signOf ((P.sub K).dot tri.normal))
    else if (d_ca ≥ 0 ∧ d_ca ≤ 1) ∧ (CA.cross tri.normal).dot (P.sub tri.c) ≥ 0 then
      let K := tri.c.add (Vec3.smul d_ca CA)
      (distance2 K P, signOf ((P.sub K).dot tri.normal))
    else
      let K := P.sub (Vec3.smul ((P.sub tri.a).dot tri.normal) tri.normal)
      (distance2 K P, signOf ((P.sub K).dot tri.normal))

/-- `*bound`, `*ans` and `*ansi` of the search. -/
structure NearState where
  bound : ℝ
  ans : Tri
  sign : Int

/-- Body of the loop over the triangles of a leaf (octree.cpp:76-86). -/
def nearStep (p : Vec3 ℝ) (s : NearState) (tri : Tri) : NearState :=
  let r := triDistance p tri
  if r.1 < s.bound ∨ (r.1 = s.bound ∧ r.2 > 0) then ⟨r.1, tri, r.2⟩ else s

/-- `nearTriangleImpl` (octree.cpp:70-96); a null child is skipped by the caller. -/
def TriTree.near (p : Vec3 ℝ) : TriTree → NearState → NearState
  | .null, s => s
  | .leaf pos half _ tris, s => if distanceToNode pos half p > s.bound then s else tris.foldl (nearStep p) s
  | .inner pos half _ ch, s =>
    if distanceToNode pos half p > s.bound then s
    else
      let idx := triIndex pos half p
      (List.finRange 8).foldl (fun s i => if i ≠ idx then (ch i).near p s else s) ((ch idx).near p s)

/-- `nearTriangle` (octree.cpp:49-68): `highest` is `numeric_limits<float>::max ()`, `junk` the content of the default
constructed triangle. -/
def TriTree.nearTriangle (highest : ℝ) (junk : Tri) (t : TriTree) (p : Vec3 ℝ) : Tri × ℝ × Int :=
  let s := t.near p ⟨highest, junk, 0⟩
  (s.ans, Real.sqrt s.bound, s.sign)

end
end Isomesh
