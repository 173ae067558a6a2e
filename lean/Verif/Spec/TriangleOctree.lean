import Verif.Model.TriangleOctree

/-! Specification vocabulary for triangles and the triangle octree. -/

namespace Isomesh

noncomputable section
open scoped Classical

/-- The point `a + s (b - a) + t (c - a)`. -/
def triPoint (T : Tri) (s t : ℝ) : Vec3 ℝ :=
  ⟨T.a.x + s * (T.b.x - T.a.x) + t * (T.c.x - T.a.x), T.a.y + s * (T.b.y - T.a.y) + t * (T.c.y - T.a.y),
    T.a.z + s * (T.b.z - T.a.z) + t * (T.c.z - T.a.z)⟩

/-- The points of the (filled, closed) triangle. -/
def Tri.Mem (T : Tri) (q : Vec3 ℝ) : Prop := ∃ s t : ℝ, 0 ≤ s ∧ 0 ≤ t ∧ s + t ≤ 1 ∧ q = triPoint T s t

/-- Squared Euclidean distance. -/
def sqDist (p q : Vec3 ℝ) : ℝ := (p.x - q.x) ^ 2 + (p.y - q.y) ^ 2 + (p.z - q.z) ^ 2

/-- `K` is a point of the triangle nearest to `P`. -/
def Tri.Nearest (T : Tri) (P K : Vec3 ℝ) : Prop := T.Mem K ∧ ∀ Q, T.Mem Q → sqDist P K ≤ sqDist P Q

/-- The triangle was made by the constructor from three points that are not on a line. -/
def Tri.Proper (T : Tri) : Prop :=
  T = Tri.make T.a T.b T.c ∧ (T.b.sub T.a).cross (T.c.sub T.a) ≠ ⟨0, 0, 0⟩

/-- The leaves of a tree: box (corner and half of the size), level, stored triangles. -/
def TriTree.leaves : TriTree → List (Vec3 ℝ × ℝ × Nat × List Tri)
  | .null => []
  | .leaf pos half level tris => [(pos, half, level, tris)]
  | .inner _ _ _ ch => (List.finRange 8).flatMap fun i => (ch i).leaves

/-- `x` is stored in a leaf with the given box. -/
def TriTree.StoredIn (t : TriTree) (x : Tri) (pos : Vec3 ℝ) (half : ℝ) : Prop :=
  ∃ level tris, (pos, half, level, tris) ∈ t.leaves ∧ x ∈ tris

/-- `x` is stored somewhere. -/
def TriTree.Stored (t : TriTree) (x : Tri) : Prop := ∃ pos half, t.StoredIn x pos half

/-- A tree made by inserting the triangles of `l`, in this order, into a new tree. -/
def TriTree.build (half : ℝ) (pos : Vec3 ℝ) (l : List Tri) : Option TriTree :=
  l.foldlM TriTree.insert (TriTree.new half 0 pos)

/-- The closed cube with lower corner `pos` and side `2 * half`. -/
def InBox (pos : Vec3 ℝ) (half : ℝ) (q : Vec3 ℝ) : Prop :=
  (pos.x ≤ q.x ∧ q.x ≤ pos.x + 2 * half) ∧ (pos.y ≤ q.y ∧ q.y ≤ pos.y + 2 * half) ∧ (pos.z ≤ q.z ∧ q.z ≤ pos.z + 2 * half)

/-- Some place where a triangle would go still has room: a missing child, a leaf below the splitting limit or at the
greatest depth.  At an inner node a triangle goes to the children of its three corners. -/
def TriTree.HasRoom (x : Tri) : TriTree → Prop
  | .null => True
  | .leaf _ _ level tris => tris.length < 60 ∨ 15 ≤ level
  | .inner pos half _ ch => (ch (triIndex pos half x.a)).HasRoom x ∨ (ch (triIndex pos half x.b)).HasRoom x ∨
      (ch (triIndex pos half x.c)).HasRoom x

/-- The node reached from the root by following the octants of a point. -/
def TriTree.descend (p : Vec3 ℝ) : TriTree → TriTree
  | .null => .null
  | .leaf pos half level tris => .leaf pos half level tris
  | .inner pos half _ ch => (ch (triIndex pos half p)).descend p

/-- `p` is a corner of the triangle. -/
def Tri.Corner (x : Tri) (p : Vec3 ℝ) : Prop := p = x.a ∨ p = x.b ∨ p = x.c

/-- The boxes and levels of the nodes are those of a tree grown from a root with this box and level. -/
def TriTree.Boxed : TriTree → Vec3 ℝ → ℝ → Nat → Prop
  | .null, _, _, _ => True
  | .leaf p h l tris, pos, half, level => p = pos ∧ h = half ∧ l = level ∧ level ≤ 15 ∧ (tris.length ≤ 60 ∨ 15 ≤ level)
  | .inner p h l ch, pos, half, level => p = pos ∧ h = half ∧ l = level ∧ level < 15 ∧
      ∀ i, (ch i).Boxed (triSubpos pos half i) (half / 2) (level + 1)

end
end Isomesh
