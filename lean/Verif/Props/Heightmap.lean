import Verif.Model.Heightmap
import Verif.Model.Mesh
import Mathlib.Tactic.Linarith
import Mathlib.Tactic.Ring
import Mathlib.Tactic.FieldSimp
import Mathlib.Tactic.Positivity
import Mathlib.Tactic.NormNum

/-! Properties C46 (heightmap sampling), C47 (sign convention), C65 (the field is Lipschitz, gradient). -/

namespace Isomesh

noncomputable section

/-! ### Specification -/

/-- An image with at least one pixel, as many values as pixels and 16-bit values. -/
structure HmImage.Sound (m : HmImage) : Prop where
  width_pos : 0 < m.width
  height_pos : 0 < m.height
  size : (m.data.length : Int) = m.height * m.width
  bits : ∀ c ∈ m.data, c < 65536

/-- `c` is the pixel of row `r`, column `k`. -/
def HmImage.Pixel (m : HmImage) (r k : Int) (c : Nat) : Prop :=
  0 ≤ r ∧ r < m.height ∧ 0 ≤ k ∧ k < m.width ∧ m.data[(r * m.width + k).toNat]? = some c

/-- The height a colour stands for: 0 is the lower end of the range, 65536 would be the upper end. -/
def colorHeight (range : ℝ × ℝ) (c : Nat) : ℝ := range.1 + (c : ℝ) / 65536 * (range.2 - range.1)

/-- The nearest number of `0, ..., n - 1`. -/
def nearestIndex (n i r : Int) : Prop := 0 ≤ r ∧ r < n ∧ ∀ r', 0 ≤ r' → r' < n → |i - r| ≤ |i - r'|

/-- The surface height reported above a point of the plane. -/
def Heightmap.Surface (hm : Heightmap) (px pz s : ℝ) : Prop := ∀ y, hm.value px y pz = some (y - s)

/-! ### Lemmas -/

theorem stdClamp_range {v n : Int} (h : 0 < n) : 0 ≤ stdClamp v 0 (n - 1) ∧ stdClamp v 0 (n - 1) < n := by
  unfold stdClamp; split_ifs <;> omega

theorem stdClamp_id {v n : Int} (h0 : 0 ≤ v) (h : v < n) : stdClamp v 0 (n - 1) = v := by
  unfold stdClamp; split_ifs <;> omega

theorem stdClamp_nearest {v n : Int} (h : 0 < n) : nearestIndex n v (stdClamp v 0 (n - 1)) := by
  obtain ⟨h1, h2⟩ := stdClamp_range (v := v) h
  refine ⟨h1, h2, ?_⟩
  intro r' h3 h4
  unfold stdClamp
  simp only [abs_eq_max_neg, max_def]
  split_ifs <;> omega

theorem nearestIndex_unique {n i r r' : Int} (h : nearestIndex n i r) (h' : nearestIndex n i r') : r = r' := by
  obtain ⟨a1, a2, a3⟩ := h
  obtain ⟨b1, b2, b3⟩ := h'
  have e : stdClamp i 0 (n - 1) = r := by
    have c := stdClamp_range (v := i) (n := n) (by omega)
    have d := a3 _ c.1 c.2
    revert d
    unfold stdClamp
    simp only [abs_eq_max_neg, max_def]
    split_ifs <;> omega
  have e' : stdClamp i 0 (n - 1) = r' := by
    have c := stdClamp_range (v := i) (n := n) (by omega)
    have d := b3 _ c.1 c.2
    revert d
    unfold stdClamp
    simp only [abs_eq_max_neg, max_def]
    split_ifs <;> omega
  omega

theorem pixel_exists {m : HmImage} (hm : m.Sound) {r k : Int} (h1 : 0 ≤ r) (h2 : r < m.height) (h3 : 0 ≤ k) (h4 : k < m.width) :
    ∃ c, m.Pixel r k c ∧ m.get (r * m.width + k) = some c := by
  have e0 : 0 ≤ r * m.width := by have := hm.width_pos; positivity
  have e1 : r * m.width + k < m.height * m.width := by
    have := hm.width_pos
    nlinarith
  have e2 : (r * m.width + k).toNat < m.data.length := by
    have := hm.size
    omega
  refine ⟨m.data[(r * m.width + k).toNat], ⟨h1, h2, h3, h4, by simp [e2]⟩, ?_⟩
  unfold HmImage.get
  rw [if_neg (by omega)]
  simp [e2]

theorem pixel_get {m : HmImage} {r k : Int} {c : Nat} (h : m.Pixel r k c) (hw : 0 < m.width) : m.get (r * m.width + k) = some c := by
  obtain ⟨h1, h2, h3, h4, h5⟩ := h
  have e0 : 0 ≤ r * m.width := by positivity
  unfold HmImage.get
  rw [if_neg (by omega), h5]

/-- What `heightVal` returns on a sound image. -/
theorem heightVal_eq {m : HmImage} (hm : m.Sound) (range : ℝ × ℝ) (i j : Int) :
    ∃ r k c, nearestIndex m.height i r ∧ nearestIndex m.width j k ∧ m.Pixel r k c ∧ heightVal range m i j = some (colorHeight range c) := by
  have a := stdClamp_range (v := i) hm.height_pos
  have b := stdClamp_range (v := j) hm.width_pos
  obtain ⟨c, h1, h2⟩ := pixel_exists hm a.1 a.2 b.1 b.2
  refine ⟨_, _, c, stdClamp_nearest hm.height_pos, stdClamp_nearest hm.width_pos, h1, ?_⟩
  unfold heightVal
  rw [h2]
  simp only [colorHeight, Option.bind_eq_bind, Option.bind_some]
  congr 1
  ring

/-- The height of the pixel nearest to the indices (0 if there is none). -/
def hmAt (range : ℝ × ℝ) (m : HmImage) (i j : Int) : ℝ := (heightVal range m i j).getD 0

theorem hmAt_eq {m : HmImage} (hm : m.Sound) (range : ℝ × ℝ) (i j : Int) : heightVal range m i j = some (hmAt range m i j) := by
  obtain ⟨r, k, c, -, -, -, h⟩ := heightVal_eq hm range i j
  simp [hmAt, h]

theorem hmAt_pixel {m : HmImage} (hm : m.Sound) (range : ℝ × ℝ) {i j r k : Int} {c : Nat} (hr : nearestIndex m.height i r)
    (hk : nearestIndex m.width j k) (hc : m.Pixel r k c) : hmAt range m i j = colorHeight range c := by
  obtain ⟨r', k', c', h1, h2, h3, h⟩ := heightVal_eq hm range i j
  have e1 := nearestIndex_unique h1 hr
  have e2 := nearestIndex_unique h2 hk
  subst e1 e2
  have e3 : c' = c := by
    have a := h3.2.2.2.2
    have b := hc.2.2.2.2
    rw [a] at b
    simpa using b
  subst e3
  simp [hmAt, h]

/-- Linear interpolation of a sequence. -/
def lerpSeq (q : Int → ℝ) (x : ℝ) : ℝ := q ⌊x⌋ * (⌊x⌋ + 1 - x) + q (⌊x⌋ + 1) * (x - ⌊x⌋)

theorem lerpSeq_cell (q : Int → ℝ) (i : Int) {u : ℝ} (h0 : 0 ≤ u) (h1 : u ≤ 1) : lerpSeq q (i + u) = q i * (1 - u) + q (i + 1) * u := by
  unfold lerpSeq
  rcases lt_or_eq_of_le h1 with h | h
  · have : ⌊(i : ℝ) + u⌋ = i := by rw [Int.floor_eq_iff]; constructor <;> linarith
    rw [this]; ring
  · subst h
    have : ⌊(i : ℝ) + 1⌋ = i + 1 := by simp
    rw [this]; push_cast; ring

theorem lerpSeq_int (q : Int → ℝ) (i : Int) : lerpSeq q i = q i := by
  have := lerpSeq_cell q i (u := 0) le_rfl zero_le_one
  simpa using this

theorem seq_lip {q : Int → ℝ} {L : ℝ} (hq : ∀ i, |q (i + 1) - q i| ≤ L) (i : Int) (n : Nat) : |q (i + n) - q i| ≤ L * n := by
  induction n with
  | zero => simp
  | succ n ih =>
    have h := hq (i + n)
    have e : q (i + (n + 1 : Nat)) - q i = (q (i + n + 1) - q (i + n)) + (q (i + n) - q i) := by
      push_cast; rw [← add_assoc]; ring
    rw [e]
    refine le_trans (abs_add_le _ _) ?_
    push_cast
    linarith

theorem lerpSeq_lip {q : Int → ℝ} {L : ℝ} (hq : ∀ i, |q (i + 1) - q i| ≤ L) (x y : ℝ) : |lerpSeq q x - lerpSeq q y| ≤ L * |x - y| := by
  wlog hxy : x ≤ y generalizing x y
  · rw [abs_sub_comm, abs_sub_comm x]
    exact this y x (le_of_not_ge hxy)
  rw [abs_sub_comm, abs_sub_comm x, abs_of_nonneg (sub_nonneg.mpr hxy)]
  have fx0 := Int.floor_le x
  have fx1 := (Int.lt_floor_add_one x).le
  have fy0 := Int.floor_le y
  have fy1 := (Int.lt_floor_add_one y).le
  have hf : ⌊x⌋ ≤ ⌊y⌋ := Int.floor_mono hxy
  rcases eq_or_lt_of_le hf with h | h
  · have e : lerpSeq q y - lerpSeq q x = (q (⌊x⌋ + 1) - q ⌊x⌋) * (y - x) := by unfold lerpSeq; rw [← h]; ring
    rw [e, abs_mul, abs_of_nonneg (sub_nonneg.mpr hxy)]
    exact mul_le_mul_of_nonneg_right (hq _) (by linarith)
  · obtain ⟨n, hn⟩ : ∃ n : Nat, ⌊y⌋ = ⌊x⌋ + 1 + n := ⟨(⌊y⌋ - (⌊x⌋ + 1)).toNat, by omega⟩
    have e : lerpSeq q y - lerpSeq q x = (q (⌊y⌋ + 1) - q ⌊y⌋) * (y - ⌊y⌋) + (q (⌊x⌋ + 1 + n) - q (⌊x⌋ + 1)) + (q (⌊x⌋ + 1) - q ⌊x⌋) * (⌊x⌋ + 1 - x) := by
      unfold lerpSeq; rw [← hn]; ring
    rw [e]
    have a1 : |(q (⌊y⌋ + 1) - q ⌊y⌋) * (y - ⌊y⌋)| ≤ L * (y - ⌊y⌋) := by
      rw [abs_mul, abs_of_nonneg (show 0 ≤ y - ⌊y⌋ by linarith)]
      exact mul_le_mul_of_nonneg_right (hq _) (by linarith)
    have a2 := seq_lip hq (⌊x⌋ + 1) n
    have a3 : |(q (⌊x⌋ + 1) - q ⌊x⌋) * (⌊x⌋ + 1 - x)| ≤ L * (⌊x⌋ + 1 - x) := by
      rw [abs_mul, abs_of_nonneg (show 0 ≤ (⌊x⌋ : ℝ) + 1 - x by linarith)]
      exact mul_le_mul_of_nonneg_right (hq _) (by linarith)
    have a4 : (⌊y⌋ : ℝ) = ⌊x⌋ + 1 + n := by rw [hn]; push_cast; ring
    refine le_trans (abs_add_le _ _) ?_
    have := abs_add_le ((q (⌊y⌋ + 1) - q ⌊y⌋) * (y - ⌊y⌋)) (q (⌊x⌋ + 1 + n) - q (⌊x⌋ + 1))
    have e2 : L * (y - x) = L * (y - ⌊y⌋) + L * n + L * (⌊x⌋ + 1 - x) := by rw [a4]; ring
    linarith

/-- Bilinear interpolation of a table. -/
def bilerp (Q : Int → Int → ℝ) (x y : ℝ) : ℝ := lerpSeq (fun i => lerpSeq (Q i) y) x

theorem bilerp_swap (Q : Int → Int → ℝ) (x y : ℝ) : bilerp Q x y = bilerp (fun j i => Q i j) y x := by
  unfold bilerp lerpSeq; ring

/-- The sampled surface. -/
def hmSurf (hm : Heightmap) (m : HmImage) (px pz : ℝ) : ℝ :=
  bilerp (hmAt hm.heightRange m) ((px - hm.center.x) / hm.pixelSize + ((m.width.tdiv 2 : Int) : ℝ)) ((pz - hm.center.z) / hm.pixelSize + ((m.height.tdiv 2 : Int) : ℝ)) + hm.center.y

theorem value_surf {hm : Heightmap} {m : HmImage} (hd : hm.data = some m) (hs : m.Sound) (px py pz : ℝ) :
    hm.value px py pz = some (py - hmSurf hm m px pz) := by
  unfold Heightmap.value
  simp only [hd, hmAt_eq hs, Option.bind_eq_bind, Option.bind_some]
  congr 2
  simp only [hmSurf, bilerp, lerpSeq]
  ring

theorem surface_iff {hm : Heightmap} {m : HmImage} (hd : hm.data = some m) (hs : m.Sound) (px pz s : ℝ) :
    hm.Surface px pz s ↔ s = hmSurf hm m px pz := by
  constructor
  · intro h
    have := h 0
    rw [value_surf hd hs] at this
    simpa using this.symm
  · rintro rfl y
    exact value_surf hd hs px y pz

theorem lerpSeq_bounds {q : Int → ℝ} {lo hi : ℝ} (h : ∀ i, lo ≤ q i ∧ q i ≤ hi) (x : ℝ) : lo ≤ lerpSeq q x ∧ lerpSeq q x ≤ hi := by
  have a := Int.floor_le x
  have b := Int.lt_floor_add_one x
  have c := h ⌊x⌋
  have d := h (⌊x⌋ + 1)
  unfold lerpSeq
  constructor <;> nlinarith

theorem hmAt_bounds {m : HmImage} (hs : m.Sound) {range : ℝ × ℝ} {lo hi : ℝ}
    (h : ∀ r k c, m.Pixel r k c → lo ≤ colorHeight range c ∧ colorHeight range c ≤ hi) (i j : Int) :
    lo ≤ hmAt range m i j ∧ hmAt range m i j ≤ hi := by
  obtain ⟨r, k, c, h1, h2, h3, h4⟩ := heightVal_eq hs range i j
  rw [hmAt_pixel hs range h1 h2 h3]
  exact h r k c h3

/-! ### C46 -/

/-- Every lookup stays inside of the image: the field has a value everywhere, and it is the altitude above a surface. -/
theorem C46_in_bounds {hm : Heightmap} {m : HmImage} (hd : hm.data = some m) (hs : m.Sound) (px pz : ℝ) : ∃! s, hm.Surface px pz s :=
  ⟨_, (surface_iff hd hs px pz _).2 rfl, fun _ h => (surface_iff hd hs px pz _).1 h⟩

/-- The sampled height lies between the lowest and the highest pixel. -/
theorem C46_range {hm : Heightmap} {m : HmImage} (hd : hm.data = some m) (hs : m.Sound) {lo hi : ℝ}
    (h : ∀ r k c, m.Pixel r k c → lo ≤ colorHeight hm.heightRange c ∧ colorHeight hm.heightRange c ≤ hi) {px pz s : ℝ}
    (hsf : hm.Surface px pz s) : hm.center.y + lo ≤ s ∧ s ≤ hm.center.y + hi := by
  rw [(surface_iff hd hs px pz s).1 hsf]
  unfold hmSurf bilerp
  have := lerpSeq_bounds (q := fun i => lerpSeq (hmAt hm.heightRange m i) ((pz - hm.center.z) / hm.pixelSize + ((m.height.tdiv 2 : Int) : ℝ)))
    (fun i => lerpSeq_bounds (fun j => hmAt_bounds hs h i j) _) ((px - hm.center.x) / hm.pixelSize + ((m.width.tdiv 2 : Int) : ℝ))
  constructor <;> linarith [this.1, this.2]

/-- The sampled height is inside of the range given by the user. -/
theorem C46_height_range {hm : Heightmap} {m : HmImage} (hd : hm.data = some m) (hs : m.Sound) (hr : hm.heightRange.1 ≤ hm.heightRange.2)
    {px pz s : ℝ} (hsf : hm.Surface px pz s) : hm.center.y + hm.heightRange.1 ≤ s ∧ s ≤ hm.center.y + hm.heightRange.2 := by
  refine C46_range hd hs ?_ hsf
  intro r k c hc
  have hb : c < 65536 := hs.bits c (List.mem_of_getElem? hc.2.2.2.2)
  have hb' : (c : ℝ) ≤ 65536 := by exact_mod_cast hb.le
  have h0 : (0 : ℝ) ≤ c := by positivity
  unfold colorHeight
  have e1 : (0 : ℝ) ≤ (c : ℝ) / 65536 := by positivity
  have e2 : (c : ℝ) / 65536 ≤ 1 := by rw [div_le_one (by norm_num)]; exact hb'
  constructor <;> nlinarith

/-- The world position `u` pixels after index `i` of `n` along an axis. -/
def pixelPos (center size : ℝ) (n i : Int) (u : ℝ) : ℝ := center + size * ((i : ℝ) + u - ((n.tdiv 2 : Int) : ℝ))

theorem pixelPos_back {center size : ℝ} (h : size ≠ 0) (n i : Int) (u : ℝ) :
    (pixelPos center size n i u - center) / size + ((n.tdiv 2 : Int) : ℝ) = i + u := by
  unfold pixelPos; field_simp; ring

theorem hmSurf_cell {hm : Heightmap} {m : HmImage} (hp : hm.pixelSize ≠ 0) (i j : Int) {u v : ℝ} (u0 : 0 ≤ u) (u1 : u ≤ 1) (v0 : 0 ≤ v) (v1 : v ≤ 1) :
    hmSurf hm m (pixelPos hm.center.x hm.pixelSize m.width i u) (pixelPos hm.center.z hm.pixelSize m.height j v) =
      hm.center.y + ((hmAt hm.heightRange m i j * (1 - v) + hmAt hm.heightRange m i (j + 1) * v) * (1 - u) +
        (hmAt hm.heightRange m (i + 1) j * (1 - v) + hmAt hm.heightRange m (i + 1) (j + 1) * v) * u) := by
  unfold hmSurf
  rw [pixelPos_back hp, pixelPos_back hp]
  unfold bilerp
  rw [lerpSeq_cell _ i u0 u1, lerpSeq_cell _ j v0 v1, lerpSeq_cell _ j v0 v1]
  ring

/-- The surface between four neighbouring lattice positions is the bilinear interpolation of the four pixels nearest to them (the
world's x axis runs along the image's rows, clamped to its height, and z along its columns, clamped to its width). -/
theorem C46_bilinear {hm : Heightmap} {m : HmImage} (hd : hm.data = some m) (hs : m.Sound) (hp : hm.pixelSize ≠ 0) {i j r r' k k' : Int}
    {c11 c12 c21 c22 : Nat} (hr : nearestIndex m.height i r) (hr' : nearestIndex m.height (i + 1) r') (hk : nearestIndex m.width j k)
    (hk' : nearestIndex m.width (j + 1) k') (h11 : m.Pixel r k c11) (h12 : m.Pixel r k' c12) (h21 : m.Pixel r' k c21) (h22 : m.Pixel r' k' c22)
    {u v : ℝ} (u0 : 0 ≤ u) (u1 : u ≤ 1) (v0 : 0 ≤ v) (v1 : v ≤ 1) :
    hm.Surface (pixelPos hm.center.x hm.pixelSize m.width i u) (pixelPos hm.center.z hm.pixelSize m.height j v)
      (hm.center.y + ((1 - u) * (1 - v) * colorHeight hm.heightRange c11 + (1 - u) * v * colorHeight hm.heightRange c12 +
        u * (1 - v) * colorHeight hm.heightRange c21 + u * v * colorHeight hm.heightRange c22)) := by
  rw [surface_iff hd hs, hmSurf_cell hp i j u0 u1 v0 v1, hmAt_pixel hs _ hr hk h11, hmAt_pixel hs _ hr hk' h12, hmAt_pixel hs _ hr' hk h21, hmAt_pixel hs _ hr' hk' h22]
  ring

/-- At a lattice position the surface has the height of the pixel. -/
theorem C46_pixel {hm : Heightmap} {m : HmImage} (hd : hm.data = some m) (hs : m.Sound) (hp : hm.pixelSize ≠ 0) {i j r k : Int} {c : Nat}
    (hr : nearestIndex m.height i r) (hk : nearestIndex m.width j k) (hc : m.Pixel r k c) :
    hm.Surface (pixelPos hm.center.x hm.pixelSize m.width i 0) (pixelPos hm.center.z hm.pixelSize m.height j 0) (hm.center.y + colorHeight hm.heightRange c) := by
  rw [surface_iff hd hs, hmSurf_cell hp i j le_rfl zero_le_one le_rfl zero_le_one, hmAt_pixel hs _ hr hk hc]
  ring

/-- Outside of the image the surface is constant along the outward direction: moving away from the image changes nothing. -/
theorem C46_extends {hm : Heightmap} {m : HmImage} (hd : hm.data = some m) (hs : m.Sound) (hp : hm.pixelSize ≠ 0) {i i' : Int} {u : ℝ}
    (u0 : 0 ≤ u) (u1 : u ≤ 1) (h : i ≤ i' ∧ i' < 0 ∨ m.height ≤ i' + 1 ∧ i' ≤ i) (pz s : ℝ) :
    hm.Surface (pixelPos hm.center.x hm.pixelSize m.width i u) pz s ↔ hm.Surface (pixelPos hm.center.x hm.pixelSize m.width i' u) pz s := by
  rw [surface_iff hd hs, surface_iff hd hs]
  have key : ∀ j, hmAt hm.heightRange m i j = hmAt hm.heightRange m i' j ∧ hmAt hm.heightRange m (i + 1) j = hmAt hm.heightRange m (i' + 1) j := by
    intro j
    have h0 := hs.height_pos
    have e1 : stdClamp i 0 (m.height - 1) = stdClamp i' 0 (m.height - 1) := by unfold stdClamp; split_ifs <;> omega
    have e2 : stdClamp (i + 1) 0 (m.height - 1) = stdClamp (i' + 1) 0 (m.height - 1) := by unfold stdClamp; split_ifs <;> omega
    unfold hmAt heightVal
    rw [e1, e2]
    exact ⟨rfl, rfl⟩
  unfold hmSurf
  rw [pixelPos_back hp, pixelPos_back hp]
  unfold bilerp
  rw [lerpSeq_cell _ i u0 u1, lerpSeq_cell _ i' u0 u1]
  have e1 : hmAt hm.heightRange m i = hmAt hm.heightRange m i' := funext fun j => (key j).1
  have e2 : hmAt hm.heightRange m (i + 1) = hmAt hm.heightRange m (i' + 1) := funext fun j => (key j).2
  rw [e1, e2]

/-- The same along the world's z axis. -/
theorem C46_extends_z {hm : Heightmap} {m : HmImage} (hd : hm.data = some m) (hs : m.Sound) (hp : hm.pixelSize ≠ 0) {j j' : Int} {v : ℝ}
    (v0 : 0 ≤ v) (v1 : v ≤ 1) (h : j ≤ j' ∧ j' < 0 ∨ m.width ≤ j' + 1 ∧ j' ≤ j) (px s : ℝ) :
    hm.Surface px (pixelPos hm.center.z hm.pixelSize m.height j v) s ↔ hm.Surface px (pixelPos hm.center.z hm.pixelSize m.height j' v) s := by
  rw [surface_iff hd hs, surface_iff hd hs]
  have key : ∀ i, hmAt hm.heightRange m i j = hmAt hm.heightRange m i j' ∧ hmAt hm.heightRange m i (j + 1) = hmAt hm.heightRange m i (j' + 1) := by
    intro i
    have h0 := hs.width_pos
    have e1 : stdClamp j 0 (m.width - 1) = stdClamp j' 0 (m.width - 1) := by unfold stdClamp; split_ifs <;> omega
    have e2 : stdClamp (j + 1) 0 (m.width - 1) = stdClamp (j' + 1) 0 (m.width - 1) := by unfold stdClamp; split_ifs <;> omega
    unfold hmAt heightVal
    rw [e1, e2]
    exact ⟨rfl, rfl⟩
  unfold hmSurf
  rw [pixelPos_back hp, pixelPos_back hp]
  unfold bilerp
  simp only [lerpSeq_cell _ j v0 v1, lerpSeq_cell _ j' v0 v1, fun i => (key i).1, fun i => (key i).2]

/-- For a square image the centre of the map is the central pixel, as documented. -/
theorem C46_center_square {hm : Heightmap} {m : HmImage} (hd : hm.data = some m) (hs : m.Sound) (hsq : m.width = m.height) {c : Nat}
    (hc : m.Pixel (m.height.tdiv 2) (m.width.tdiv 2) c) : hm.Surface hm.center.x hm.center.z (hm.center.y + colorHeight hm.heightRange c) := by
  rw [surface_iff hd hs]
  unfold hmSurf
  simp only [sub_self, zero_div, zero_add]
  unfold bilerp
  rw [lerpSeq_int, lerpSeq_int]
  have e : hmAt hm.heightRange m (m.width.tdiv 2) (m.height.tdiv 2) = colorHeight hm.heightRange c := by
    have h1 : nearestIndex m.height (m.height.tdiv 2) (m.height.tdiv 2) := by
      obtain ⟨a, b, -⟩ := hc
      exact ⟨a, b, fun r' _ _ => by simp⟩
    have h2 : nearestIndex m.width (m.width.tdiv 2) (m.width.tdiv 2) := by
      obtain ⟨-, -, a, b, -⟩ := hc
      exact ⟨a, b, fun r' _ _ => by simp⟩
    exact hmAt_pixel hs _ (hsq ▸ h1) (hsq ▸ h2) hc
  rw [e]; ring

/-! ### C47 -/

/-- The value is the altitude above the surface: below it the value is negative, above positive, on it zero, and it grows with y
exactly as fast as y. -/
theorem C47_sign {hm : Heightmap} {px pz s : ℝ} (h : hm.Surface px pz s) (y : ℝ) :
    ∃ v, hm.value px y pz = some v ∧ (v < 0 ↔ y < s) ∧ (0 < v ↔ s < y) ∧ (v = 0 ↔ y = s) ∧
      ∀ y' v', hm.value px y' pz = some v' → v' - v = y' - y := by
  refine ⟨y - s, h y, by constructor <;> intro _ <;> linarith, by constructor <;> intro _ <;> linarith,
    by constructor <;> intro _ <;> linarith, ?_⟩
  intro y' v' hv
  rw [h y'] at hv
  simp only [Option.some.injEq] at hv
  rw [← hv]; ring

/-- Before an image is loaded the surface is the horizontal plane through the centre. -/
theorem C47_unloaded (hm : Heightmap) (h : hm.isDataLoaded = false) (px pz : ℝ) : hm.Surface px pz hm.center.y := by
  have hd : hm.data = none := by simpa [Heightmap.isDataLoaded] using h
  intro y
  unfold Heightmap.value
  simp [hd]

/-- Loading: a readable one-channel image is used from then on and no other setting changes; a file that cannot be read leaves the
field as it was, and an image with several channels leaves it without image; both are reported by an exception. -/
theorem C47_load (hm : Heightmap) (m : HmImage) :
    (m.bpp = 1 → hm.loadGrayscaleMap (some m) = ({ hm with data := some m }, false)) ∧
      (m.bpp ≠ 1 → (hm.loadGrayscaleMap (some m)).2 = true ∧ (hm.loadGrayscaleMap (some m)).1.isDataLoaded = false) ∧
      hm.loadGrayscaleMap none = (hm, true) := by
  refine ⟨fun h => by simp [Heightmap.loadGrayscaleMap, h], fun h => by simp [Heightmap.loadGrayscaleMap, h, Heightmap.isDataLoaded], rfl⟩

/-- Moving the centre moves the surface along. -/
theorem C47_translate (hm : Heightmap) (d : Vec3 ℝ) (px pz s : ℝ) :
    (hm.setCenter (hm.center.add d)).Surface (px + d.x) (pz + d.z) (s + d.y) ↔ hm.Surface px pz s := by
  unfold Heightmap.Surface
  have key : ∀ y, (hm.setCenter (hm.center.add d)).value (px + d.x) y (pz + d.z) = hm.value px (y - d.y) pz := by
    intro y
    unfold Heightmap.value Heightmap.setCenter
    simp only [Vec3.add]
    have e1 : px + d.x - (hm.center.x + d.x) = px - hm.center.x := by ring
    have e2 : pz + d.z - (hm.center.z + d.z) = pz - hm.center.z := by ring
    rw [e1, e2]
    have e3 : ∀ h : ℝ, y - (h + (hm.center.y + d.y)) = y - d.y - (h + hm.center.y) := fun h => by ring
    simp only [e3]
  constructor
  · intro h y
    have := h (y + d.y)
    rw [key] at this
    rw [show y + d.y - d.y = y by ring] at this
    rw [this]; congr 1; ring
  · intro h y
    rw [key, h]; congr 1; ring

/-- Changing the pixel size scales the surface horizontally about the centre; the heights stay. -/
theorem C47_pixel_size (hm : Heightmap) {s : ℝ} (hs : s ≠ 0) (hp : hm.pixelSize ≠ 0) (u v h : ℝ) :
    (hm.setPixelSize s).Surface (hm.center.x + s * u) (hm.center.z + s * v) h ↔
      hm.Surface (hm.center.x + hm.pixelSize * u) (hm.center.z + hm.pixelSize * v) h := by
  have key : ∀ y, (hm.setPixelSize s).value (hm.center.x + s * u) y (hm.center.z + s * v) =
      hm.value (hm.center.x + hm.pixelSize * u) y (hm.center.z + hm.pixelSize * v) := by
    intro y
    unfold Heightmap.value Heightmap.setPixelSize
    simp only [add_sub_cancel_left, mul_div_cancel_left₀ _ hs, mul_div_cancel_left₀ _ hp]
  unfold Heightmap.Surface
  simp only [key]

/-- Changing the height range moves the surface by the affine map that takes the old range to the new one, everywhere alike. -/
theorem C47_height_range {hm : Heightmap} {m : HmImage} (hd : hm.data = some m) (hs : m.Sound) (r : ℝ × ℝ) (px pz : ℝ) :
    ∃ t : ℝ, hm.Surface px pz (hm.center.y + (hm.heightRange.1 + t * (hm.heightRange.2 - hm.heightRange.1))) ∧
      (hm.setHeightRange r).Surface px pz (hm.center.y + (r.1 + t * (r.2 - r.1))) ∧ 0 ≤ t ∧ t ≤ 1 := by
  have h1 : ∀ (r : ℝ × ℝ) i j, hmAt r m i j = r.1 + hmAt (0, 1) m i j * (r.2 - r.1) := by
    intro r i j
    obtain ⟨a, b, c, x1, x2, x3, -⟩ := heightVal_eq hs r i j
    rw [hmAt_pixel hs r x1 x2 x3, hmAt_pixel hs (0, 1) x1 x2 x3]
    unfold colorHeight
    simp
  have h2 : ∀ (r : ℝ × ℝ) (q : Int → Int → ℝ) x z, bilerp (fun i j => r.1 + q i j * (r.2 - r.1)) x z = r.1 + bilerp q x z * (r.2 - r.1) := by
    intro r q x z
    unfold bilerp lerpSeq
    ring
  have hb := C46_height_range (hm := hm.setHeightRange (0, 1)) (m := m) hd hs (by norm_num [Heightmap.setHeightRange])
    ((surface_iff (hm := hm.setHeightRange (0, 1)) hd hs px pz _).2 rfl)
  refine ⟨hmSurf (hm.setHeightRange (0, 1)) m px pz - hm.center.y, ?_, ?_, ?_, ?_⟩
  · rw [surface_iff hd hs]
    simp only [hmSurf, Heightmap.setHeightRange]
    rw [show hmAt hm.heightRange m = fun i j => hm.heightRange.1 + hmAt (0, 1) m i j * (hm.heightRange.2 - hm.heightRange.1) from
      funext fun i => funext fun j => h1 _ i j, h2]
    ring
  · rw [surface_iff (hm := hm.setHeightRange r) hd hs]
    simp only [hmSurf, Heightmap.setHeightRange]
    rw [show hmAt r m = fun i j => r.1 + hmAt (0, 1) m i j * (r.2 - r.1) from funext fun i => funext fun j => h1 _ i j, h2]
    ring
  · have := hb.1
    simp only [Heightmap.setHeightRange] at this ⊢
    linarith
  · have := hb.2
    simp only [Heightmap.setHeightRange] at this ⊢
    linarith

/-- None of the setters loads or drops the image. -/
theorem C47_setters_keep_image (hm : Heightmap) (r : ℝ × ℝ) (s : ℝ) (c : Vec3 ℝ) :
    (hm.setHeightRange r).isDataLoaded = hm.isDataLoaded ∧ (hm.setPixelSize s).isDataLoaded = hm.isDataLoaded ∧
      (hm.setCenter c).isDataLoaded = hm.isDataLoaded := ⟨rfl, rfl, rfl⟩

/-! ### C65 -/

/-- The steps between neighbouring pixels along the world's x axis are at most `L`. -/
def HmImage.StepX (m : HmImage) (range : ℝ × ℝ) (L : ℝ) : Prop :=
  ∀ r k c c', m.Pixel r k c → m.Pixel (r + 1) k c' → |colorHeight range c' - colorHeight range c| ≤ L

/-- The steps between neighbouring pixels along the world's z axis are at most `L`. -/
def HmImage.StepZ (m : HmImage) (range : ℝ × ℝ) (L : ℝ) : Prop :=
  ∀ r k c c', m.Pixel r k c → m.Pixel r (k + 1) c' → |colorHeight range c' - colorHeight range c| ≤ L

theorem step_hmAt_x {m : HmImage} (hs : m.Sound) {range : ℝ × ℝ} {L : ℝ} (hL : 0 ≤ L) (h : m.StepX range L) (i j : Int) :
    |hmAt range m (i + 1) j - hmAt range m i j| ≤ L := by
  obtain ⟨r, k, c, h1, h2, h3, -⟩ := heightVal_eq hs range i j
  obtain ⟨r', k', c', h1', h2', h3', -⟩ := heightVal_eq hs range (i + 1) j
  rw [hmAt_pixel hs range h1 h2 h3, hmAt_pixel hs range h1' h2' h3']
  have e := nearestIndex_unique h2 h2'
  subst e
  have a := nearestIndex_unique h1 (stdClamp_nearest hs.height_pos)
  have b := nearestIndex_unique h1' (stdClamp_nearest hs.height_pos)
  have : r' = r ∨ r' = r + 1 := by
    have := hs.height_pos
    rw [a, b]; unfold stdClamp; split_ifs <;> omega
  rcases this with e | e
  · subst e
    have : c' = c := by
      have p := h3.2.2.2.2
      have q := h3'.2.2.2.2
      rw [p] at q; simpa using q.symm
    subst this; simpa using hL
  · subst e; exact h r k c c' h3 h3'

theorem step_hmAt_z {m : HmImage} (hs : m.Sound) {range : ℝ × ℝ} {L : ℝ} (hL : 0 ≤ L) (h : m.StepZ range L) (i j : Int) :
    |hmAt range m i (j + 1) - hmAt range m i j| ≤ L := by
  obtain ⟨r, k, c, h1, h2, h3, -⟩ := heightVal_eq hs range i j
  obtain ⟨r', k', c', h1', h2', h3', -⟩ := heightVal_eq hs range i (j + 1)
  rw [hmAt_pixel hs range h1 h2 h3, hmAt_pixel hs range h1' h2' h3']
  have e := nearestIndex_unique h1 h1'
  subst e
  have a := nearestIndex_unique h2 (stdClamp_nearest hs.width_pos)
  have b := nearestIndex_unique h2' (stdClamp_nearest hs.width_pos)
  have : k' = k ∨ k' = k + 1 := by
    have := hs.width_pos
    rw [a, b]; unfold stdClamp; split_ifs <;> omega
  rcases this with e | e
  · subst e
    have : c' = c := by
      have p := h3.2.2.2.2
      have q := h3'.2.2.2.2
      rw [p] at q; simpa using q.symm
    subst this; simpa using hL
  · subst e; exact h r k c c' h3 h3'

theorem bilerp_lip_x {Q : Int → Int → ℝ} {L : ℝ} (h : ∀ i j, |Q (i + 1) j - Q i j| ≤ L) (x x' y : ℝ) :
    |bilerp Q x y - bilerp Q x' y| ≤ L * |x - x'| := by
  refine lerpSeq_lip ?_ x x'
  intro i
  have e : lerpSeq (Q (i + 1)) y - lerpSeq (Q i) y = lerpSeq (fun j => Q (i + 1) j - Q i j) y := by unfold lerpSeq; ring
  rw [e, abs_le]
  exact lerpSeq_bounds (fun j => abs_le.1 (h i j)) y

/-- The surface is continuous: it never climbs steeper than the steepest step between neighbouring pixels. -/
theorem C65_lipschitz {hm : Heightmap} {m : HmImage} (hd : hm.data = some m) (hs : m.Sound) {L M : ℝ} (hL : 0 ≤ L) (hM : 0 ≤ M)
    (hx : m.StepX hm.heightRange L) (hz : m.StepZ hm.heightRange M) {px pz px' pz' s s' : ℝ} (h : hm.Surface px pz s) (h' : hm.Surface px' pz' s') :
    |s - s'| ≤ L / |hm.pixelSize| * |px - px'| + M / |hm.pixelSize| * |pz - pz'| := by
  rw [surface_iff hd hs] at h h'
  rw [h, h']
  unfold hmSurf
  generalize ((m.width.tdiv 2 : Int) : ℝ) = a
  generalize ((m.height.tdiv 2 : Int) : ℝ) = b
  have p := bilerp_lip_x (step_hmAt_x hs hL hx) ((px - hm.center.x) / hm.pixelSize + a) ((px' - hm.center.x) / hm.pixelSize + a)
    ((pz - hm.center.z) / hm.pixelSize + b)
  have q := bilerp_lip_x (Q := fun j i => hmAt hm.heightRange m i j) (fun j i => step_hmAt_z hs hM hz i j)
    ((pz - hm.center.z) / hm.pixelSize + b) ((pz' - hm.center.z) / hm.pixelSize + b) ((px' - hm.center.x) / hm.pixelSize + a)
  rw [bilerp_swap (fun j i => hmAt hm.heightRange m i j), bilerp_swap (fun j i => hmAt hm.heightRange m i j)] at q
  have e1 : (px - hm.center.x) / hm.pixelSize + a - ((px' - hm.center.x) / hm.pixelSize + a) = (px - px') / hm.pixelSize := by ring
  have e2 : (pz - hm.center.z) / hm.pixelSize + b - ((pz' - hm.center.z) / hm.pixelSize + b) = (pz - pz') / hm.pixelSize := by ring
  rw [e1, abs_div] at p
  rw [e2, abs_div] at q
  have e3 : L / |hm.pixelSize| * |px - px'| = L * (|px - px'| / |hm.pixelSize|) := by ring
  have e4 : M / |hm.pixelSize| * |pz - pz'| = M * (|pz - pz'| / |hm.pixelSize|) := by ring
  rw [e3, e4]
  refine le_trans ?_ (add_le_add p q)
  refine le_trans (le_of_eq ?_) (abs_add_le _ _)
  congr 1; ring

/-- The gradient exists everywhere, points upwards with unit slope in y and its other components are bounded by the steepest step. -/
theorem C65_grad_bounded {hm : Heightmap} {m : HmImage} (hd : hm.data = some m) (hs : m.Sound) (hp : hm.pixelSize ≠ 0) {L M : ℝ} (hL : 0 ≤ L)
    (hM : 0 ≤ M) (hx : m.StepX hm.heightRange L) (hz : m.StepZ hm.heightRange M) (px py pz : ℝ) :
    ∃ g, hm.grad px py pz = some g ∧ g.y = 1 ∧ |g.x| ≤ L / |hm.pixelSize| ∧ |g.z| ≤ M / |hm.pixelSize| := by
  unfold Heightmap.grad
  simp only [value_surf hd hs, Option.bind_eq_bind, Option.bind_some]
  refine ⟨_, rfl, rfl, ?_, ?_⟩
  · have l := C65_lipschitz hd hs hL hM hx hz ((surface_iff hd hs (px - hm.pixelSize / 4) pz _).2 rfl) ((surface_iff hd hs (px + hm.pixelSize / 4) pz _).2 rfl)
    rw [show px - hm.pixelSize / 4 - (px + hm.pixelSize / 4) = -(hm.pixelSize / 2) by ring, abs_neg, abs_div, sub_self, abs_zero, mul_zero, add_zero, abs_two] at l
    have hpp : 0 < |hm.pixelSize| := abs_pos.2 hp
    dsimp only
    rw [show ∀ a b : ℝ, py - a - (py - b) = b - a from fun a b => by ring, abs_div, abs_div, abs_div, abs_two, show |(4 : ℝ)| = 4 by norm_num, div_div,
      div_le_iff₀ (by positivity)]
    refine le_trans l (le_of_eq ?_)
    ring
  · have l := C65_lipschitz hd hs hL hM hx hz ((surface_iff hd hs px (pz - hm.pixelSize / 4) _).2 rfl) ((surface_iff hd hs px (pz + hm.pixelSize / 4) _).2 rfl)
    rw [show pz - hm.pixelSize / 4 - (pz + hm.pixelSize / 4) = -(hm.pixelSize / 2) by ring, abs_neg, abs_div, sub_self, abs_zero, mul_zero, zero_add, abs_two] at l
    have hpp : 0 < |hm.pixelSize| := abs_pos.2 hp
    dsimp only
    rw [show ∀ a b : ℝ, py - a - (py - b) = b - a from fun a b => by ring, abs_div, abs_div, abs_div, abs_two, show |(4 : ℝ)| = 4 by norm_num, div_div,
      div_le_iff₀ (by positivity)]
    refine le_trans l (le_of_eq ?_)
    ring

/-- In the middle half of a cell along both axes the gradient is the exact slope of the interpolated surface there. -/
theorem C65_grad_exact {hm : Heightmap} {m : HmImage} (hd : hm.data = some m) (hs : m.Sound) (hp : hm.pixelSize ≠ 0) {i j r r' k k' : Int}
    {c11 c12 c21 c22 : Nat} (hr : nearestIndex m.height i r) (hr' : nearestIndex m.height (i + 1) r') (hk : nearestIndex m.width j k)
    (hk' : nearestIndex m.width (j + 1) k') (h11 : m.Pixel r k c11) (h12 : m.Pixel r k' c12) (h21 : m.Pixel r' k c21) (h22 : m.Pixel r' k' c22)
    {u v : ℝ} (u0 : 1 / 4 ≤ u) (u1 : u ≤ 3 / 4) (v0 : 1 / 4 ≤ v) (v1 : v ≤ 3 / 4) (py : ℝ) :
    hm.grad (pixelPos hm.center.x hm.pixelSize m.width i u) py (pixelPos hm.center.z hm.pixelSize m.height j v) =
      some ⟨-((1 - v) * (colorHeight hm.heightRange c21 - colorHeight hm.heightRange c11) + v * (colorHeight hm.heightRange c22 - colorHeight hm.heightRange c12)) / hm.pixelSize, 1,
        -((1 - u) * (colorHeight hm.heightRange c12 - colorHeight hm.heightRange c11) + u * (colorHeight hm.heightRange c22 - colorHeight hm.heightRange c21)) / hm.pixelSize⟩ := by
  have sx : ∀ n i t, pixelPos hm.center.x hm.pixelSize n i t - hm.pixelSize / 4 = pixelPos hm.center.x hm.pixelSize n i (t - 1 / 4) := by
    intros; unfold pixelPos; ring
  have sx' : ∀ n i t, pixelPos hm.center.x hm.pixelSize n i t + hm.pixelSize / 4 = pixelPos hm.center.x hm.pixelSize n i (t + 1 / 4) := by
    intros; unfold pixelPos; ring
  have sz : ∀ n i t, pixelPos hm.center.z hm.pixelSize n i t - hm.pixelSize / 4 = pixelPos hm.center.z hm.pixelSize n i (t - 1 / 4) := by
    intros; unfold pixelPos; ring
  have sz' : ∀ n i t, pixelPos hm.center.z hm.pixelSize n i t + hm.pixelSize / 4 = pixelPos hm.center.z hm.pixelSize n i (t + 1 / 4) := by
    intros; unfold pixelPos; ring
  unfold Heightmap.grad
  simp only [value_surf hd hs, Option.bind_eq_bind, Option.bind_some, sx, sx', sz, sz']
  rw [hmSurf_cell hp i j (by linarith) (by linarith) (by linarith) (by linarith), hmSurf_cell hp i j (by linarith) (by linarith) (by linarith) (by linarith),
    hmSurf_cell hp i j (by linarith) (by linarith) (by linarith) (by linarith), hmSurf_cell hp i j (by linarith) (by linarith) (by linarith) (by linarith)]
  rw [hmAt_pixel hs _ hr hk h11, hmAt_pixel hs _ hr hk' h12, hmAt_pixel hs _ hr' hk h21, hmAt_pixel hs _ hr' hk' h22]
  congr 1
  ext
  · dsimp only; field_simp; ring
  · rfl
  · dsimp only; field_simp; ring

/-! ### Examples -/

/-- Two rows, four columns. -/
def demoImage : HmImage := ⟨4, 2, 1, [0, 16384, 32768, 49152, 0, 0, 0, 0]⟩

theorem demoImage_sound : demoImage.Sound := ⟨by decide, by decide, by decide, by decide⟩

def demoHm : Heightmap := { Heightmap.new (0, 4) ⟨10, 1, 20⟩ 2 with data := some demoImage }

/-- The documented position of the central pixel is wrong for an image that is not square: the height at the centre of the map is
that of another pixel. -/
theorem C46_center_fails : ∃ (hm : Heightmap) (m : HmImage) (c : Nat), hm.data = some m ∧ m.Sound ∧ 0 < hm.pixelSize ∧
    m.Pixel (m.height.tdiv 2) (m.width.tdiv 2) c ∧ ¬ hm.Surface hm.center.x hm.center.z (hm.center.y + colorHeight hm.heightRange c) := by
  refine ⟨{ demoHm with data := some ⟨4, 2, 1, [0, 0, 0, 0, 0, 16384, 0, 0]⟩ }, ⟨4, 2, 1, [0, 0, 0, 0, 0, 16384, 0, 0]⟩, 0, rfl,
    ⟨by decide, by decide, by decide, by decide⟩, by norm_num [demoHm, Heightmap.new], ⟨by decide, by decide, by decide, by decide, by decide⟩, ?_⟩
  intro h
  have hs : HmImage.Sound ⟨4, 2, 1, [0, 0, 0, 0, 0, 16384, 0, 0]⟩ := ⟨by decide, by decide, by decide, by decide⟩
  have e := C46_pixel (hm := { demoHm with data := some ⟨4, 2, 1, [0, 0, 0, 0, 0, 16384, 0, 0]⟩ }) rfl hs (by norm_num [demoHm, Heightmap.new])
    (i := 2) (j := 1) (r := 1) (k := 1) (c := 16384) ⟨by decide, by decide, ?_⟩ ⟨by decide, by decide, ?_⟩ ⟨by decide, by decide, by decide, by decide, by decide⟩
  · simp only [pixelPos, demoHm, Heightmap.new] at e h
    have a := (surface_iff rfl hs _ _ _).1 h
    rw [show Int.tdiv 4 2 = 2 from rfl, show Int.tdiv 2 2 = 1 from rfl] at e
    norm_num at e
    have b := (surface_iff rfl hs _ _ _).1 e
    rw [← b] at a
    norm_num [colorHeight] at a
  · intro r' h1 h2
    simp only [abs_eq_max_neg, max_def] at *
    split_ifs <;> omega
  · intro r' h1 h2
    simp only [abs_eq_max_neg, max_def] at *
    split_ifs <;> omega

example : demoHm.Surface (pixelPos 10 2 4 0 0) (pixelPos 20 2 2 1 0) 2 := by
  have h := C46_pixel (hm := demoHm) rfl demoImage_sound (by norm_num [demoHm, Heightmap.new]) (i := 0) (j := 1) (r := 0) (k := 1) (c := 16384)
    ⟨by decide, by decide, fun r' _ _ => by simp⟩ ⟨by decide, by decide, fun r' _ _ => by simp⟩ ⟨by decide, by decide, by decide, by decide, by decide⟩
  have e : demoHm.center.y + colorHeight demoHm.heightRange 16384 = 2 := by norm_num [demoHm, Heightmap.new, colorHeight]
  rw [e] at h
  exact h

example : demoImage.StepZ (0, 4) 4 ∧ demoImage.StepX (0, 4) 4 := by
  have key : ∀ c c' : Nat, c ∈ demoImage.data → c' ∈ demoImage.data → |colorHeight (0, 4) c' - colorHeight (0, 4) c| ≤ 4 := by
    intro c c' h h'
    have a : (c : ℝ) < 65536 := by exact_mod_cast demoImage_sound.bits c h
    have b : (c' : ℝ) < 65536 := by exact_mod_cast demoImage_sound.bits c' h'
    have a0 : (0 : ℝ) ≤ c := by positivity
    have b0 : (0 : ℝ) ≤ c' := by positivity
    unfold colorHeight
    rw [abs_le]
    constructor <;> norm_num <;> linarith
  exact ⟨fun r k c c' h h' => key c c' (List.mem_of_getElem? h.2.2.2.2) (List.mem_of_getElem? h'.2.2.2.2),
    fun r k c c' h h' => key c c' (List.mem_of_getElem? h.2.2.2.2) (List.mem_of_getElem? h'.2.2.2.2)⟩

end
end Isomesh
