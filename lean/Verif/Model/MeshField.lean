import Verif.Model.TriangleOctree

/-! Model of `MeshField` (include/isomesh/field/mesh_field.hpp, src/field/mesh_field.cpp).  `double` and `float` are `ℝ`. -/

namespace Isomesh

noncomputable section
open scoped Classical

/-- `MeshField` (mesh_field.hpp:35): `none` is the null root pointer. -/
structure MeshField where
  root : Option TriTree

/-- The constructor (mesh_field.cpp:16-19). -/
def MeshField.new : MeshField := ⟨none⟩

/-- The bounding box loop of `load` (mesh_field.cpp:30-53). -/
def meshFieldBox (fltMax fltMin : ℝ) (d : PlyData ℝ) : Option ((ℝ × ℝ) × (ℝ × ℝ) × (ℝ × ℝ)) :=
  (List.range d.verticesCount).foldlM
    (fun (s : (ℝ × ℝ) × (ℝ × ℝ) × (ℝ × ℝ)) (i : Nat) => do
      let p ← d.vertex i
      some (minMaxStep s.1 p.x, minMaxStep s.2.1 p.y, minMaxStep s.2.2 p.z))
    ((fltMax, fltMin), (fltMax, fltMin), (fltMax, fltMin))

/-- `load` (mesh_field.cpp:21-69) of a file with the given buffers; the previous tree is deleted.  `none`: a read past the
end of a buffer. -/
def MeshField.load (fltMax fltMin : ℝ) (f : PlyFile ℝ) (reverseLoadedOrder : Bool) (_mf : MeshField) : Option MeshField := do
  let data ← PlyData.load fltMax fltMin f
  let data := if reverseLoadedOrder then data.setWindingOrder false else data
  let ((minX, maxX), (minY, maxY), (minZ, maxZ)) ← meshFieldBox fltMax fltMin data
  let treeSize := max (maxX - minX) (max (maxY - minY) (maxZ - minZ))
  let root ← (List.range data.trianglesCount).foldlM
    (fun (root : TriTree) (i : Nat) => do
      let t ← data.triangle i
      root.insert (Tri.make t.1 t.2.1 t.2.2))
    (TriTree.new (treeSize / 2) 0 ⟨minX, minY, minZ⟩)
  some ⟨some root⟩

/-- `value` (mesh_field.cpp:71-76).  `none`: the null root is followed. -/
def MeshField.value (fltMax : ℝ) (junk : Tri) (mf : MeshField) (x y z : ℝ) : Option ℝ := do
  let root ← mf.root
  let ans := root.nearTriangle fltMax junk ⟨x, y, z⟩
  some (ans.2.1 * (ans.2.2 : ℝ))

/-- `halfSize` (octree.hpp:22). -/
def TriTree.halfSize : TriTree → Option ℝ
  | .null => none
  | .leaf _ half _ _ => some half
  | .inner _ half _ _ => some half

/-- `grad` (mesh_field.cpp:78-89). -/
def MeshField.grad (fltMax : ℝ) (junk : Tri) (mf : MeshField) (x y z : ℝ) : Option (Vec3 ℝ) := do
  let root ← mf.root
  let half ← root.halfSize
  let h := half / 500
  let x1 ← mf.value fltMax junk (x - h) y z
  let x2 ← mf.value fltMax junk (x + h) y z
  let y1 ← mf.value fltMax junk x (y - h) z
  let y2 ← mf.value fltMax junk x (y + h) z
  let z1 ← mf.value fltMax junk x y (z - h)
  let z2 ← mf.value fltMax junk x y (z + h)
  some ⟨(x2 - x1) / 2 / h, (y2 - y1) / 2 / h, (z2 - z1) / 2 / h⟩

end
end Isomesh
