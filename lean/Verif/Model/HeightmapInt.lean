import Verif.Model.Heightmap

/-! Model of the `int` arithmetic of `Heightmap` (src/field/heightmap.cpp): the same functions as in `Model/Heightmap.lean`, but every value of
type `int` is checked to be in the range of a 32 bit number.  Simplification: `double` is still `ℝ`. -/

namespace Isomesh

noncomputable section

/-- A value of type `int`, produced by a conversion from `double` or by signed arithmetic; outside of the range both are undefined behaviour
(`none`). -/
def int32? (i : Int) : Option Int := if -2147483648 ≤ i ∧ i ≤ 2147483647 then some i else none

/-- `heightVal` (heightmap.cpp:74-77): the difference, the product and the sum are computed in `int`. -/
def heightVal32 (range : ℝ × ℝ) (m : HmImage) (x y : Int) : Option ℝ := do
  let maxRow ← int32? (m.height - 1)
  let maxCol ← int32? (m.width - 1)
  let row ← int32? (stdClamp x 0 maxRow * m.width)
  let idx ← int32? (row + stdClamp y 0 maxCol)
  let color ← m.get idx
  some (range.1 + (color : ℝ) * (range.2 - range.1) / 65536)

/-- `value` (heightmap.cpp:37-61): line 43 converts to `int` (`glm::ivec2`), lines 45-48 add one in `int`. -/
def Heightmap.value32 (hm : Heightmap) (px py pz : ℝ) : Option ℝ := do
  let h ← match hm.data with
    | none => some 0
    | some m => do
      let x := (px - hm.center.x) / hm.pixelSize + ((Int.tdiv m.width 2 : Int) : ℝ)
      let y := (pz - hm.center.z) / hm.pixelSize + ((Int.tdiv m.height 2 : Int) : ℝ)
      let i ← int32? ⌊x⌋
      let j ← int32? ⌊y⌋
      let i1 ← int32? (i + 1)
      let j1 ← int32? (j + 1)
      let q11 ← heightVal32 hm.heightRange m i j
      let q12 ← heightVal32 hm.heightRange m i j1
      let q21 ← heightVal32 hm.heightRange m i1 j
      let q22 ← heightVal32 hm.heightRange m i1 j1
      some (q11 * (i1 - x) * (j1 - y) + q21 * (x - i) * (j1 - y) + q12 * (i1 - x) * (y - j) + q22 * (x - i) * (y - j))
  some (py - (h + hm.center.y))

/-- `grad` (heightmap.cpp:63-72). -/
def Heightmap.grad32 (hm : Heightmap) (x y z : ℝ) : Option (Vec3 ℝ) := do
  let h := hm.pixelSize / 4
  let x1 ← hm.value32 (x - h) y z
  let x2 ← hm.value32 (x + h) y z
  let z1 ← hm.value32 x y (z - h)
  let z2 ← hm.value32 x y (z + h)
  some ⟨(x2 - x1) / 2 / h, 1, (z2 - z1) / 2 / h⟩

end
end Isomesh
