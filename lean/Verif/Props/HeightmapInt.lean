import Verif.Model.HeightmapInt
import Verif.Props.Heightmap

/-! C100: where sampling a heightmap is free of integer overflow. -/

namespace Isomesh

/-- The position is in the part of the world whose pixel coordinates fit the type `int`, leaving room for the next pixel. -/
def Heightmap.Addressable (hm : Heightmap) (m : HmImage) (px pz : ℝ) : Prop :=
  (-2147483648 ≤ (px - hm.center.x) / hm.pixelSize + ((m.width.tdiv 2 : Int) : ℝ) ∧
    (px - hm.center.x) / hm.pixelSize + ((m.width.tdiv 2 : Int) : ℝ) < 2147483647) ∧
  (-2147483648 ≤ (pz - hm.center.z) / hm.pixelSize + ((m.height.tdiv 2 : Int) : ℝ) ∧
    (pz - hm.center.z) / hm.pixelSize + ((m.height.tdiv 2 : Int) : ℝ) < 2147483647)

theorem int32?_some {i : Int} (h : -2147483648 ≤ i ∧ i ≤ 2147483647) : int32? i = some i := if_pos h

theorem int32?_none {i : Int} (h : ¬ (-2147483648 ≤ i ∧ i ≤ 2147483647)) : int32? i = none := if_neg h

theorem heightVal32_eq {m : HmImage} (hs : m.Sound) (hsz : m.height * m.width ≤ 2147483647) (range : ℝ × ℝ) (x y : Int) :
    heightVal32 range m x y = heightVal range m x y := by
  have hw := hs.width_pos
  have hh := hs.height_pos
  have hW : m.width ≤ 2147483647 := le_trans (by nlinarith) hsz
  have hH : m.height ≤ 2147483647 := le_trans (by nlinarith) hsz
  have cx : 0 ≤ stdClamp x 0 (m.height - 1) ∧ stdClamp x 0 (m.height - 1) ≤ m.height - 1 := by unfold stdClamp; split_ifs <;> omega
  have cy : 0 ≤ stdClamp y 0 (m.width - 1) ∧ stdClamp y 0 (m.width - 1) ≤ m.width - 1 := by unfold stdClamp; split_ifs <;> omega
  unfold heightVal32 heightVal
  rw [int32?_some (by omega), int32?_some (by omega)]
  simp only [Option.bind_eq_bind, Option.bind_some]
  generalize stdClamp x 0 (m.height - 1) = a at *
  generalize stdClamp y 0 (m.width - 1) = b at *
  have h1 : 0 ≤ a * m.width := mul_nonneg cx.1 hw.le
  have h2 : a * m.width ≤ (m.height - 1) * m.width := mul_le_mul_of_nonneg_right cx.2 hw.le
  have h3 : (m.height - 1) * m.width = m.height * m.width - m.width := by ring
  rw [int32?_some (by omega)]
  simp only [Option.bind_some]
  rw [int32?_some (by omega)]
  rfl

theorem floor_range (x : ℝ) : (-2147483648 ≤ x ∧ x < 2147483647) ↔ (-2147483648 ≤ ⌊x⌋ ∧ ⌊x⌋ ≤ 2147483646) := by
  rw [Int.le_floor, ← Int.lt_add_one_iff, Int.floor_lt]
  norm_num

/-- C100 (inside): with any image that has less than 2^31 pixels, sampling at an addressable position does no integer overflow and gives the
value of the ideal heightmap. -/
theorem C100_value {hm : Heightmap} {m : HmImage} (hd : hm.data = some m) (hs : m.Sound) (hsz : m.height * m.width ≤ 2147483647) {px pz : ℝ}
    (h : hm.Addressable m px pz) (py : ℝ) : hm.value32 px py pz = hm.value px py pz ∧ (hm.value px py pz).isSome := by
  refine ⟨?_, by rw [value_surf hd hs]; rfl⟩
  obtain ⟨h1, h2⟩ := h
  rw [floor_range] at h1 h2
  unfold Heightmap.value32 Heightmap.value
  simp only [hd, Option.bind_eq_bind, int32?_some (show -2147483648 ≤ ⌊_⌋ ∧ _ from ⟨h1.1, by omega⟩),
    int32?_some (show -2147483648 ≤ ⌊_⌋ ∧ _ from ⟨h2.1, by omega⟩), Option.bind_some]
  rw [int32?_some (by omega), int32?_some (by omega)]
  simp only [Option.bind_some, heightVal32_eq hs hsz]
  push_cast
  rfl

/-- C100 (outside): at every other position the conversion to `int` or the addition of one overflows, which is undefined behaviour. -/
theorem C100_overflow {hm : Heightmap} {m : HmImage} (hd : hm.data = some m) {px pz : ℝ} (h : ¬ hm.Addressable m px pz) (py : ℝ) :
    hm.value32 px py pz = none := by
  unfold Heightmap.Addressable at h
  rw [floor_range, floor_range] at h
  unfold Heightmap.value32
  simp only [hd, Option.bind_eq_bind]
  generalize ⌊(px - hm.center.x) / hm.pixelSize + ((m.width.tdiv 2 : Int) : ℝ)⌋ = i at *
  generalize ⌊(pz - hm.center.z) / hm.pixelSize + ((m.height.tdiv 2 : Int) : ℝ)⌋ = j at *
  by_cases hi : -2147483648 ≤ i ∧ i ≤ 2147483647
  · by_cases hj : -2147483648 ≤ j ∧ j ≤ 2147483647
    · rw [int32?_some hi, int32?_some hj]
      simp only [Option.bind_some]
      by_cases hi' : i + 1 ≤ 2147483647
      · rw [int32?_some ⟨by omega, hi'⟩, int32?_none (i := j + 1) (by omega)]
        simp
      · rw [int32?_none (i := i + 1) (by omega)]
        simp
    · rw [int32?_some hi, int32?_none hj]
      simp
  · rw [int32?_none hi]
    simp

/-- C100 (no image): without an image no integer is computed. -/
theorem C100_unloaded {hm : Heightmap} (h : hm.isDataLoaded = false) (px py pz : ℝ) : hm.value32 px py pz = hm.value px py pz := by
  have hd : hm.data = none := by simpa [Heightmap.isDataLoaded] using h
  unfold Heightmap.value32 Heightmap.value
  simp [hd]

/-- C100 (gradient): the gradient is computed without overflow if the four positions a quarter of a pixel away are addressable. -/
theorem C100_grad {hm : Heightmap} {m : HmImage} (hd : hm.data = some m) (hs : m.Sound) (hsz : m.height * m.width ≤ 2147483647) {px pz : ℝ}
    (h1 : hm.Addressable m (px - hm.pixelSize / 4) pz) (h2 : hm.Addressable m (px + hm.pixelSize / 4) pz)
    (h3 : hm.Addressable m px (pz - hm.pixelSize / 4)) (h4 : hm.Addressable m px (pz + hm.pixelSize / 4)) (py : ℝ) :
    hm.grad32 px py pz = hm.grad px py pz := by
  unfold Heightmap.grad32 Heightmap.grad
  simp only [(C100_value hd hs hsz h1 py).1, (C100_value hd hs hsz h2 py).1, (C100_value hd hs hsz h3 py).1, (C100_value hd hs hsz h4 py).1]

/-- C100 (in the user's terms): everything within a thousand million pixels of the centre is addressable, for every image. -/
theorem C100_near {hm : Heightmap} {m : HmImage} (hs : m.Sound) (hsz : m.height * m.width ≤ 2147483647) (hp : 0 < hm.pixelSize) {px pz : ℝ}
    (hx : |px - hm.center.x| ≤ 1000000000 * hm.pixelSize) (hz : |pz - hm.center.z| ≤ 1000000000 * hm.pixelSize) : hm.Addressable m px pz := by
  have hw := hs.width_pos
  have hh := hs.height_pos
  have hW : m.width ≤ 2147483647 := le_trans (by nlinarith) hsz
  have hH : m.height ≤ 2147483647 := le_trans (by nlinarith) hsz
  have key : ∀ (a c : ℝ) (w : Int), 0 < w → w ≤ 2147483647 → |a - c| ≤ 1000000000 * hm.pixelSize →
      -2147483648 ≤ (a - c) / hm.pixelSize + ((w.tdiv 2 : Int) : ℝ) ∧ (a - c) / hm.pixelSize + ((w.tdiv 2 : Int) : ℝ) < 2147483647 := by
    intro a c w w0 w1 h
    have e : 0 ≤ w.tdiv 2 ∧ w.tdiv 2 ≤ 1073741823 := by rw [Int.tdiv_eq_ediv_of_nonneg w0.le]; omega
    have e1 : (0 : ℝ) ≤ ((w.tdiv 2 : Int) : ℝ) := by exact_mod_cast e.1
    have e2 : ((w.tdiv 2 : Int) : ℝ) ≤ 1073741823 := by exact_mod_cast e.2
    rw [abs_le] at h
    have f1 : -1000000000 ≤ (a - c) / hm.pixelSize := by rw [le_div_iff₀ hp]; linarith [h.1]
    have f2 : (a - c) / hm.pixelSize ≤ 1000000000 := by rw [div_le_iff₀ hp]; linarith [h.2]
    constructor <;> linarith
  exact ⟨key _ _ _ hw hW hx, key _ _ _ hh hH hz⟩

/-- Non-vacuity: the demo heightmap at a position of its image and three thousand million pixels away. -/
example : demoHm.Addressable demoImage 10 20 ∧ demoImage.height * demoImage.width ≤ 2147483647 ∧ ¬ demoHm.Addressable demoImage 6000000010 20 := by
  refine ⟨C100_near demoImage_sound (by decide) (by norm_num [demoHm, Heightmap.new]) ?_ ?_, by decide, ?_⟩
  · norm_num [demoHm, Heightmap.new]
  · norm_num [demoHm, Heightmap.new]
  · unfold Heightmap.Addressable
    norm_num [demoHm, Heightmap.new, demoImage, show Int.tdiv 4 2 = 2 by decide]

end Isomesh
