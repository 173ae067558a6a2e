import Verif.Model.TriNodeMem
import Verif.Spec.TriangleOctree

/-! Notions for property C80: ownership of the nodes of a triangle octree. -/

namespace Isomesh

noncomputable section
open scoped Classical

/-- A triangle octree with the addresses of its nodes. -/
inductive TriPtrTree where
  | null
  | leaf (a : Nat) (pos : Vec3 ℝ) (half : ℝ) (level : Nat) (tris : List Tri)
  | inner (a : Nat) (pos : Vec3 ℝ) (half : ℝ) (level : Nat) (ch : Fin 8 → TriPtrTree)

/-- Without the addresses. -/
def TriPtrTree.tree : TriPtrTree → TriTree
  | .null => .null
  | .leaf _ pos half level tris => .leaf pos half level tris
  | .inner _ pos half level ch => .inner pos half level fun i => (ch i).tree

/-- The addresses of the nodes. -/
def TriPtrTree.Has : TriPtrTree → Nat → Prop
  | .null, _ => False
  | .leaf a _ _ _ _, x => x = a
  | .inner a _ _ _ ch, x => x = a ∨ ∃ i, (ch i).Has x

/-- No node occurs twice. -/
def TriPtrTree.Sep : TriPtrTree → Prop
  | .null => True
  | .leaf .. => True
  | .inner a _ _ _ ch => (∀ i, (ch i).Sep ∧ ¬ (ch i).Has a) ∧ ∀ i j, i ≠ j → ∀ x, (ch i).Has x → ¬ (ch j).Has x

/-- The pointer leads to the tree.  (A subdivided node may have old triangles in its vector.) -/
def TriPtrTree.Rep (mem : Nat → Option TriRaw) : TriPtrTree → Option Nat → Prop
  | .null, p => p = none
  | .leaf a pos half level tris, p => p = some a ∧ mem a = some ⟨pos, half, true, level, fun _ => none, tris⟩
  | .inner a pos half level ch, p => p = some a ∧ ∃ child old, mem a = some ⟨pos, half, false, level, child, old⟩ ∧
      ∀ i, (ch i).Rep mem (child i)

/-- The pointer leads to a tree whose nodes belong to nobody else; addresses from `next` on are unused. -/
structure TriMem.Owned (s : TriMem) (p : Option Nat) (t : TriPtrTree) : Prop where
  rep : t.Rep s.mem p
  sep : t.Sep
  unused : ∀ x, s.next ≤ x → s.mem x = none

/-- The tree `t` has become `t'`: all new nodes belong to it, it has lost none, and nothing else has changed. -/
structure Grown (s s' : TriMem) (t t' : TriPtrTree) : Prop where
  next : s.next ≤ s'.next
  has : ∀ x, t'.Has x ↔ t.Has x ∨ (s.next ≤ x ∧ x < s'.next)
  keep : ∀ x, ¬ t.Has x → x < s.next → s'.mem x = s.mem x

/-- What is left of a tree after a failed insertion of `x`: the boxes are right, nothing but `x` is new, and all lost triangles were
stored in one full leaf. -/
structure TriTree.Broken (pos : Vec3 ℝ) (half : ℝ) (level : Nat) (t : TriTree) (x : Tri) (t' : TriTree) : Prop where
  boxed : t'.Boxed pos half level
  only : ∀ y, t'.Stored y → t.Stored y ∨ y = x
  lost : ∃ tris : List Tri, (tris = [] ∨ ∃ p h l, (p, h, l, tris) ∈ t.leaves ∧ tris.length = 60) ∧
    ∀ y, t.Stored y → t'.Stored y ∨ y ∈ tris

/-- Number of allocations of a `push_back` to a vector of `n` elements. -/
def pushNeed (grows : Nat → Bool) (n : Nat) : Nat := if grows n then 1 else 0

/-- Sum over the different octants of the three corners. -/
def nodeNeed (pos : Vec3 ℝ) (half : ℝ) (x : Tri) (c : Fin 8 → Nat) : Nat :=
  c (triIndex pos half x.a) + (if triIndex pos half x.b ≠ triIndex pos half x.a then c (triIndex pos half x.b) else 0) +
    (if triIndex pos half x.c ≠ triIndex pos half x.b ∧ triIndex pos half x.c ≠ triIndex pos half x.a then c (triIndex pos half x.c) else 0)

/-- Allocations for the insertion into an octant that has received `k` triangles. -/
def octantNeed (grows : Nat → Bool) (k : Nat) : Nat := if k = 0 then 1 + pushNeed grows 0 else pushNeed grows k

/-- Allocations for distributing the list `tris` to octants that have received the triangles of `old`. -/
def splitNeed (grows : Nat → Bool) (pos : Vec3 ℝ) (half : ℝ) : (old tris : List Tri) → Nat
  | _, [] => 0
  | old, y :: ys => nodeNeed pos half y (fun i => octantNeed grows
      (old.filter fun z => i = triIndex pos half z.a ∨ i = triIndex pos half z.b ∨ i = triIndex pos half z.c).length) +
      splitNeed grows pos half (old ++ [y]) ys

/-- Number of allocations of `insert`; for a missing child, its own allocation included. -/
def TriTree.need (grows : Nat → Bool) (x : Tri) : TriTree → Nat
  | .null => 1 + pushNeed grows 0
  | .leaf pos half level tris => if tris.length < 60 ∨ 15 ≤ level then pushNeed grows tris.length else splitNeed grows pos half [] tris
  | .inner pos half _ ch => nodeNeed pos half x fun i => (ch i).need grows x

end
end Isomesh
