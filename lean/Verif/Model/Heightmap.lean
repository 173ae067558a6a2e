import Verif.Model.Grid
import Mathlib.Algebra.Order.Floor.Ring
import Mathlib.Data.Real.Archimedean

/-! Model of `Heightmap` (include/isomesh/field/heightmap.hpp, src/field/heightmap.cpp) and of the image it reads
(src/private/stbi_data.hpp, src/private/stbi_data.cpp).

Simplifications: `double` is `ℝ`; `int` is `Int` without overflow (checked in `Model/HeightmapInt.lean`, C100); decoding the image file (stb_image) is not modelled, an
image is given by its sizes, its channel count and its pixels (one 16-bit value each, row by row). -/

namespace Isomesh

noncomputable section

/-- `STBImageData` (stbi_data.hpp:10-24). -/
structure HmImage where
  width : Int
  height : Int
  bpp : Int
  data : List Nat

/-- `STBImageData::operator[]` (stbi_data.cpp:30-32).  `none`: outside of the buffer. -/
def HmImage.get (m : HmImage) (idx : Int) : Option Nat := if idx < 0 then none else m.data[idx.toNat]?

/-- `Heightmap` (heightmap.hpp:60-63). -/
structure Heightmap where
  data : Option HmImage
  heightRange : ℝ × ℝ
  pixelSize : ℝ
  center : Vec3 ℝ

/-- The constructor (heightmap.cpp:17-22). -/
def Heightmap.new (heightRange : ℝ × ℝ) (center : Vec3 ℝ) (pixelSize : ℝ) : Heightmap := ⟨none, heightRange, pixelSize, center⟩

/-- `loadGrayscaleMap` (heightmap.cpp:28-35), given the result of opening the file (`none`: not found or not an image, the
constructor of `STBImageData` throws, stbi_data.cpp:14-24); the flag says that an exception was thrown. -/
def Heightmap.loadGrayscaleMap (hm : Heightmap) (file : Option HmImage) : Heightmap × Bool :=
  match file with
  | none => (hm, true)
  | some m => if m.bpp ≠ 1 then ({ hm with data := none }, true) else ({ hm with data := some m }, false)

/-- `std::clamp`. -/
def stdClamp (v lo hi : Int) : Int := if v < lo then lo else if hi < v then hi else v

/-- `heightVal` (heightmap.cpp:74-77). -/
def heightVal (range : ℝ × ℝ) (m : HmImage) (x y : Int) : Option ℝ := do
  let color ← m.get (stdClamp x 0 (m.height - 1) * m.width + stdClamp y 0 (m.width - 1))
  some (range.1 + (color : ℝ) * (range.2 - range.1) / 65536)

/-- `value` (heightmap.cpp:37-61). -/
def Heightmap.value (hm : Heightmap) (px py pz : ℝ) : Option ℝ := do
  let h ← match hm.data with
    | none => some 0
    | some m => do
      let x := (px - hm.center.x) / hm.pixelSize + ((Int.tdiv m.width 2 : Int) : ℝ)
      let y := (pz - hm.center.z) / hm.pixelSize + ((Int.tdiv m.height 2 : Int) : ℝ)
      let i := ⌊x⌋
      let j := ⌊y⌋
      let q11 ← heightVal hm.heightRange m i j
      let q12 ← heightVal hm.heightRange m i (j + 1)
      let q21 ← heightVal hm.heightRange m (i + 1) j
      let q22 ← heightVal hm.heightRange m (i + 1) (j + 1)
      some (q11 * (i + 1 - x) * (j + 1 - y) + q21 * (x - i) * (j + 1 - y) + q12 * (i + 1 - x) * (y - j) + q22 * (x - i) * (y - j))
  some (py - (h + hm.center.y))

/-- `grad` (heightmap.cpp:63-72). -/
def Heightmap.grad (hm : Heightmap) (x y z : ℝ) : Option (Vec3 ℝ) := do
  let h := hm.pixelSize / 4
  let x1 ← hm.value (x - h) y z
  let x2 ← hm.value (x + h) y z
  let z1 ← hm.value x y (z - h)
  let z2 ← hm.value x y (z + h)
  some ⟨(x2 - x1) / 2 / h, 1, (z2 - z1) / 2 / h⟩

/-- A heightmap used as a scalar field (the overridden functions, heightmap.hpp:36-37; `material` is not overridden, so it is the default of
scalar_field.hpp:48-51).  `value` and `grad` of the model are `none` only where a lookup would leave the image, which never happens (C46_in_bounds);
the default values given here are then never used. -/
def Heightmap.field (hm : Heightmap) : ScalarField ℝ where
  value p := (hm.value p.x p.y p.z).getD 0
  grad p := (hm.grad p.x p.y p.z).getD ⟨0, 0, 0⟩
  material _ _ := .Solid

/-- `setHeightRange` (heightmap.cpp:79-81). -/
def Heightmap.setHeightRange (hm : Heightmap) (r : ℝ × ℝ) : Heightmap := { hm with heightRange := r }

/-- `setPixelSize` (heightmap.cpp:87-89). -/
def Heightmap.setPixelSize (hm : Heightmap) (s : ℝ) : Heightmap := { hm with pixelSize := s }

/-- `setCenter` (heightmap.cpp:95-97). -/
def Heightmap.setCenter (hm : Heightmap) (c : Vec3 ℝ) : Heightmap := { hm with center := c }

/-- `isDataLoaded` (heightmap.cpp:103-105). -/
def Heightmap.isDataLoaded (hm : Heightmap) : Bool := hm.data.isSome

end
end Isomesh
