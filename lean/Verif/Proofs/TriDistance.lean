import Verif.Spec.TriangleOctree
import Mathlib.Topology.Order.Compact
import Mathlib.Topology.Instances.Real.Lemmas
import Mathlib.Topology.MetricSpace.ProperSpace
import Mathlib.Tactic.Linarith
import Mathlib.Tactic.Ring
import Mathlib.Tactic.FieldSimp
import Mathlib.Tactic.Positivity
import Mathlib.Tactic.LinearCombination

/-! Point to triangle distance. -/

namespace Isomesh

noncomputable section
open scoped Classical

theorem distance2_eq (a b : Vec3 ℝ) : distance2 a b = sqDist b a := by
  simp only [distance2, sqDist]; ring

/-- Quadratic form of the squared distance. -/
def triQ (p q E F G s t : ℝ) : ℝ := s ^ 2 * E + 2 * s * t * F + t ^ 2 * G - 2 * (s * p + t * q)

theorem sqDist_triPoint (T : Tri) (P : Vec3 ℝ) (s t : ℝ) :
    sqDist P (triPoint T s t) = (P.sub T.a).dot (P.sub T.a) +
      triQ ((P.sub T.a).dot (T.b.sub T.a)) ((P.sub T.a).dot (T.c.sub T.a)) ((T.b.sub T.a).dot (T.b.sub T.a))
        ((T.b.sub T.a).dot (T.c.sub T.a)) ((T.c.sub T.a).dot (T.c.sub T.a)) s t := by
  simp only [sqDist, triPoint, Vec3.dot, Vec3.sub, triQ]; ring

/-- The variational inequality is sufficient. -/
theorem triQ_min {p q E F G s0 t0 : ℝ} (hE : 0 ≤ E) (hG : 0 ≤ G) (hD : 0 ≤ E * G - F * F)
    {s t : ℝ} (h : (s - s0) * (p - s0 * E - t0 * F) + (t - t0) * (q - s0 * F - t0 * G) ≤ 0) :
    triQ p q E F G s0 t0 ≤ triQ p q E F G s t := by
  have e : triQ p q E F G s t = triQ p q E F G s0 t0 + ((s - s0) ^ 2 * E + 2 * (s - s0) * (t - t0) * F + (t - t0) ^ 2 * G)
      - 2 * ((s - s0) * (p - s0 * E - t0 * F) + (t - t0) * (q - s0 * F - t0 * G)) := by
    simp only [triQ]; ring
  have pos : 0 ≤ (s - s0) ^ 2 * E + 2 * (s - s0) * (t - t0) * F + (t - t0) ^ 2 * G := by
    rcases hE.eq_or_lt with h0 | h0
    · have hF : F = 0 := by
        have : F * F ≤ 0 := by rw [← h0] at hD; linarith
        nlinarith [mul_self_nonneg F]
      rw [← h0, hF]
      nlinarith [mul_nonneg (sq_nonneg (t - t0)) hG]
    · have : 0 ≤ E * ((s - s0) ^ 2 * E + 2 * (s - s0) * (t - t0) * F + (t - t0) ^ 2 * G) := by
        have : E * ((s - s0) ^ 2 * E + 2 * (s - s0) * (t - t0) * F + (t - t0) ^ 2 * G)
            = (E * (s - s0) + F * (t - t0)) ^ 2 + (t - t0) ^ 2 * (E * G - F * F) := by ring
        rw [this]; positivity
      exact nonneg_of_mul_nonneg_right this h0
  linarith

/-- A minimiser exists, and satisfies the variational inequality. -/
theorem triQ_exists (p q E F G : ℝ) :
    ∃ s0 t0 : ℝ, 0 ≤ s0 ∧ 0 ≤ t0 ∧ s0 + t0 ≤ 1 ∧ ∀ s t, 0 ≤ s → 0 ≤ t → s + t ≤ 1 →
      (s - s0) * (p - s0 * E - t0 * F) + (t - t0) * (q - s0 * F - t0 * G) ≤ 0 := by
  have hc : IsCompact {x : ℝ × ℝ | 0 ≤ x.1 ∧ 0 ≤ x.2 ∧ x.1 + x.2 ≤ 1} := by
    apply IsCompact.of_isClosed_subset (isCompact_Icc (a := (0 : ℝ)) (b := 1) |>.prod (isCompact_Icc (a := (0 : ℝ)) (b := 1)))
    · apply IsClosed.and (isClosed_le continuous_const continuous_fst)
      apply IsClosed.and (isClosed_le continuous_const continuous_snd)
      exact isClosed_le (continuous_fst.add continuous_snd) continuous_const
    · rintro ⟨x, y⟩ ⟨h1, h2, h3⟩
      dsimp only at h1 h2 h3
      exact ⟨⟨h1, by linarith⟩, ⟨h2, by linarith⟩⟩
  obtain ⟨⟨s0, t0⟩, ⟨h1, h2, h3⟩, hm⟩ := hc.exists_isMinOn (f := fun x => triQ p q E F G x.1 x.2)
    ⟨(0, 0), by simp⟩ (by unfold triQ; fun_prop)
  refine ⟨s0, t0, h1, h2, h3, fun s t hs ht hst => ?_⟩
  by_contra hcon
  push Not at hcon
  set r := (s - s0) * (p - s0 * E - t0 * F) + (t - t0) * (q - s0 * F - t0 * G) with hr
  set Q := (s - s0) ^ 2 * E + 2 * (s - s0) * (t - t0) * F + (t - t0) ^ 2 * G with hQ
  -- step of length `ε` towards `(s, t)`
  have key : ∀ ε : ℝ, 0 ≤ ε → ε ≤ 1 → 0 ≤ ε ^ 2 * Q - 2 * ε * r := by
    intro ε e0 e1
    have := hm (a := (s0 + ε * (s - s0), t0 + ε * (t - t0)))
      (by
        dsimp only at h1 h2 h3
        refine ⟨?_, ?_, ?_⟩ <;> dsimp only <;> nlinarith)
    simp only [Set.mem_setOf_eq] at this
    have e : triQ p q E F G (s0 + ε * (s - s0)) (t0 + ε * (t - t0)) = triQ p q E F G s0 t0 + (ε ^ 2 * Q - 2 * ε * r) := by
      simp only [triQ, hQ, hr]; ring
    linarith
  have k1 := key 1 zero_le_one le_rfl
  have hQ0 : 0 < Q := by linarith
  have k2 := key (r / Q) (by positivity) (by rw [div_le_one hQ0]; linarith)
  have e : (r / Q) ^ 2 * Q - 2 * (r / Q) * r = - (r ^ 2 / Q) := by field_simp; ring
  rw [e] at k2
  have : 0 < r ^ 2 / Q := by positivity
  linarith

/-- Minimal point of the triangle from the variational inequality. -/
theorem nearest_of {T : Tri} {P : Vec3 ℝ} {s0 t0 : ℝ} (h1 : 0 ≤ s0) (h2 : 0 ≤ t0) (h3 : s0 + t0 ≤ 1)
    (h : ∀ s t, 0 ≤ s → 0 ≤ t → s + t ≤ 1 →
      (s - s0) * ((P.sub T.a).dot (T.b.sub T.a) - s0 * (T.b.sub T.a).dot (T.b.sub T.a) - t0 * (T.b.sub T.a).dot (T.c.sub T.a)) +
      (t - t0) * ((P.sub T.a).dot (T.c.sub T.a) - s0 * (T.b.sub T.a).dot (T.c.sub T.a) - t0 * (T.c.sub T.a).dot (T.c.sub T.a)) ≤ 0) :
    T.Nearest P (triPoint T s0 t0) := by
  refine ⟨⟨s0, t0, h1, h2, h3, rfl⟩, ?_⟩
  rintro Q ⟨s, t, hs, ht, hst, rfl⟩
  rw [sqDist_triPoint, sqDist_triPoint]
  have := triQ_min (p := (P.sub T.a).dot (T.b.sub T.a)) (q := (P.sub T.a).dot (T.c.sub T.a)) (E := (T.b.sub T.a).dot (T.b.sub T.a))
    (F := (T.b.sub T.a).dot (T.c.sub T.a)) (G := (T.c.sub T.a).dot (T.c.sub T.a)) (s0 := s0) (t0 := t0) (s := s) (t := t)
    (by simp only [Vec3.dot]; nlinarith [mul_self_nonneg (T.b.sub T.a).x, mul_self_nonneg (T.b.sub T.a).y, mul_self_nonneg (T.b.sub T.a).z])
    (by simp only [Vec3.dot]; nlinarith [mul_self_nonneg (T.c.sub T.a).x, mul_self_nonneg (T.c.sub T.a).y, mul_self_nonneg (T.c.sub T.a).z])
    (by
      have e : (T.b.sub T.a).dot (T.b.sub T.a) * (T.c.sub T.a).dot (T.c.sub T.a)
          - (T.b.sub T.a).dot (T.c.sub T.a) * (T.b.sub T.a).dot (T.c.sub T.a)
          = ((T.b.sub T.a).cross (T.c.sub T.a)).x ^ 2 + ((T.b.sub T.a).cross (T.c.sub T.a)).y ^ 2
            + ((T.b.sub T.a).cross (T.c.sub T.a)).z ^ 2 := by
        simp only [Vec3.dot, Vec3.cross]; ring
      rw [e]; positivity)
    (h s t hs ht hst)
  linarith

theorem vec_sq_pos {v : Vec3 ℝ} (h : v ≠ ⟨0, 0, 0⟩) : 0 < v.dot v := by
  obtain ⟨x, y, z⟩ := v
  simp only [Vec3.dot]
  by_contra hc
  have hx : x = 0 := by nlinarith [mul_self_nonneg x, mul_self_nonneg y, mul_self_nonneg z]
  have hy : y = 0 := by nlinarith [mul_self_nonneg x, mul_self_nonneg y, mul_self_nonneg z]
  have hz : z = 0 := by nlinarith [mul_self_nonneg x, mul_self_nonneg y, mul_self_nonneg z]
  exact h (by rw [hx, hy, hz])

/-- Coordinates of `u` in the frame `e`, `f`, `e × f`. -/
theorem frame_id (u e f : Vec3 ℝ) :
    (e.dot e * f.dot f - e.dot f * e.dot f) * u.x = (f.dot f * u.dot e - e.dot f * u.dot f) * e.x
      + (e.dot e * u.dot f - e.dot f * u.dot e) * f.x + u.dot (e.cross f) * (e.cross f).x ∧
    (e.dot e * f.dot f - e.dot f * e.dot f) * u.y = (f.dot f * u.dot e - e.dot f * u.dot f) * e.y
      + (e.dot e * u.dot f - e.dot f * u.dot e) * f.y + u.dot (e.cross f) * (e.cross f).y ∧
    (e.dot e * f.dot f - e.dot f * e.dot f) * u.z = (f.dot f * u.dot e - e.dot f * u.dot f) * e.z
      + (e.dot e * u.dot f - e.dot f * u.dot e) * f.z + u.dot (e.cross f) * (e.cross f).z := by
  simp only [Vec3.dot, Vec3.cross]
  refine ⟨?_, ?_, ?_⟩ <;> ring

/-- The result of a branch: squared distance to `K` and side of `K`. -/
def triOut (P K n : Vec3 ℝ) : ℝ × Int := (sqDist P K, if 0 < (P.sub K).dot n then 1 else -1)

/-- `triDistance` in scalar form. -/
theorem triDistance_scalar {T : Tri} (hT : T.Proper) (P : Vec3 ℝ) {p q E F G : ℝ}
    (hp : (P.sub T.a).dot (T.b.sub T.a) = p) (hq : (P.sub T.a).dot (T.c.sub T.a) = q)
    (hE : (T.b.sub T.a).dot (T.b.sub T.a) = E) (hF : (T.b.sub T.a).dot (T.c.sub T.a) = F)
    (hG : (T.c.sub T.a).dot (T.c.sub T.a) = G) :
    0 < E ∧ 0 < G ∧ 0 < E * G - F * F ∧ 0 < G - 2 * F + E ∧
    triDistance P T =
      if q ≤ 0 ∧ p ≤ 0 then triOut P (triPoint T 0 0) T.normal
      else if E ≤ p ∧ q - F - p + E ≤ 0 then triOut P (triPoint T 1 0) T.normal
      else if p - F ≤ q - G ∧ G ≤ q then triOut P (triPoint T 0 1) T.normal
      else if (0 ≤ p ∧ p ≤ E) ∧ 0 ≤ F * p - E * q then triOut P (triPoint T (p / E) 0) T.normal
      else if (0 ≤ q - F - p + E ∧ q - G ≤ p - F) ∧ 0 ≤ (G - F) * (p - E) - (F - E) * (q - F) then
        triOut P (triPoint T (1 - (q - F - p + E) / (G - 2 * F + E)) ((q - F - p + E) / (G - 2 * F + E))) T.normal
      else if (0 ≤ q ∧ q ≤ G) ∧ 0 ≤ F * q - G * p then triOut P (triPoint T 0 (q / G)) T.normal
      else triOut P (triPoint T ((G * p - F * q) / (E * G - F * F)) ((E * q - F * p) / (E * G - F * F))) T.normal := by
  obtain ⟨hmk, hnd⟩ := hT
  have hD : 0 < E * G - F * F := by
    have := vec_sq_pos hnd
    have e : E * G - F * F = ((T.b.sub T.a).cross (T.c.sub T.a)).dot ((T.b.sub T.a).cross (T.c.sub T.a)) := by
      rw [← hE, ← hF, ← hG]; simp only [Vec3.dot, Vec3.cross]; ring
    rw [e]; exact this
  have hE0 : 0 < E := by
    have : 0 ≤ E := by
      rw [← hE]; simp only [Vec3.dot]
      nlinarith [mul_self_nonneg (T.b.sub T.a).x, mul_self_nonneg (T.b.sub T.a).y, mul_self_nonneg (T.b.sub T.a).z]
    rcases this.eq_or_lt with h | h
    · rw [← h] at hD; nlinarith [mul_self_nonneg F]
    · exact h
  have hG0 : 0 < G := by
    by_contra hc
    nlinarith [mul_self_nonneg F]
  have hH : 0 < G - 2 * F + E := by
    have : 0 < E * (G - 2 * F + E) := by nlinarith [mul_self_nonneg (E - F)]
    exact pos_of_mul_pos_right this hE0.le
  refine ⟨hE0, hG0, hD, hH, ?_⟩
  -- the normal
  set L := Real.sqrt (E * G - F * F) with hL
  have hL0 : 0 < L := Real.sqrt_pos.mpr hD
  have hLL : L * L = E * G - F * F := Real.mul_self_sqrt hD.le
  have hmm : ((T.a.sub T.b).cross (T.a.sub T.c)).dot ((T.a.sub T.b).cross (T.a.sub T.c)) = E * G - F * F := by
    rw [← hE, ← hF, ← hG]; simp only [Vec3.dot, Vec3.cross, Vec3.sub]; ring
  have hn : T.normal = Vec3.smul L⁻¹ ((T.b.sub T.a).cross (T.c.sub T.a)) := by
    rw [hmk]; simp only [Tri.make, unitVec]
    rw [hmm, ← hL]
    simp only [Vec3.smul, Vec3.cross, Vec3.sub, Vec3.mk.injEq]
    refine ⟨?_, ?_, ?_⟩ <;> ring
  have o1 : (T.b.sub T.a).dot (P.sub T.a) / (T.b.sub T.a).dot (T.b.sub T.a) = p / E := by
    rw [hE, ← hp]; congr 1; simp only [Vec3.dot]; ring
  have o2 : (T.a.sub T.c).dot (P.sub T.c) / (T.a.sub T.c).dot (T.a.sub T.c) = (G - q) / G := by
    congr 1
    · rw [← hG, ← hq]; simp only [Vec3.dot, Vec3.sub]; ring
    · rw [← hG]; simp only [Vec3.dot, Vec3.sub]; ring
  have o3 : (T.c.sub T.b).dot (P.sub T.b) / (T.c.sub T.b).dot (T.c.sub T.b) = (q - F - p + E) / (G - 2 * F + E) := by
    congr 1
    · rw [← hE, ← hF, ← hp, ← hq]; simp only [Vec3.dot, Vec3.sub]; ring
    · rw [← hE, ← hF, ← hG]; simp only [Vec3.dot, Vec3.sub]; ring
  have c1 : ((T.b.sub T.a).cross T.normal).dot (P.sub T.a) = L⁻¹ * (F * p - E * q) := by
    rw [hn, ← hE, ← hF, ← hp, ← hq]; simp only [Vec3.dot, Vec3.sub, Vec3.cross, Vec3.smul]; ring
  have c2 : ((T.c.sub T.b).cross T.normal).dot (P.sub T.b) = L⁻¹ * ((G - F) * (p - E) - (F - E) * (q - F)) := by
    rw [hn, ← hE, ← hF, ← hG, ← hp, ← hq]; simp only [Vec3.dot, Vec3.sub, Vec3.cross, Vec3.smul]; ring
  have c3 : ((T.a.sub T.c).cross T.normal).dot (P.sub T.c) = L⁻¹ * (F * q - G * p) := by
    rw [hn, ← hF, ← hG, ← hp, ← hq]; simp only [Vec3.dot, Vec3.sub, Vec3.cross, Vec3.smul]; ring
  have pe1 : p / E ≥ 1 ↔ E ≤ p := by rw [ge_iff_le, one_le_div hE0]
  have pe2 : p / E ≤ 0 ↔ p ≤ 0 := by rw [div_le_iff₀ hE0, zero_mul]
  have pe3 : p / E ≥ 0 ↔ 0 ≤ p := by rw [ge_iff_le, le_div_iff₀ hE0, zero_mul]
  have pe4 : p / E ≤ 1 ↔ p ≤ E := div_le_one hE0
  have qg1 : (G - q) / G ≥ 1 ↔ q ≤ 0 := by rw [ge_iff_le, one_le_div hG0]; constructor <;> intro h <;> linarith
  have qg2 : (G - q) / G ≤ 0 ↔ G ≤ q := by rw [div_le_iff₀ hG0, zero_mul, sub_nonpos]
  have qg3 : (G - q) / G ≥ 0 ↔ q ≤ G := by rw [ge_iff_le, le_div_iff₀ hG0, zero_mul, sub_nonneg]
  have qg4 : (G - q) / G ≤ 1 ↔ 0 ≤ q := by rw [div_le_one hG0]; constructor <;> intro h <;> linarith
  have bc1 : (q - F - p + E) / (G - 2 * F + E) ≥ 1 ↔ p - F ≤ q - G := by
    rw [ge_iff_le, one_le_div hH]; constructor <;> intro h <;> linarith
  have bc2 : (q - F - p + E) / (G - 2 * F + E) ≤ 0 ↔ q - F - p + E ≤ 0 := by rw [div_le_iff₀ hH, zero_mul]
  have bc3 : (q - F - p + E) / (G - 2 * F + E) ≥ 0 ↔ 0 ≤ q - F - p + E := by rw [ge_iff_le, le_div_iff₀ hH, zero_mul]
  have bc4 : (q - F - p + E) / (G - 2 * F + E) ≤ 1 ↔ q - G ≤ p - F := by
    rw [div_le_one hH]; constructor <;> intro h <;> linarith
  have hLi : 0 < L⁻¹ := inv_pos.mpr hL0
  have l1 : ∀ x : ℝ, L⁻¹ * x ≥ 0 ↔ 0 ≤ x := fun x => by rw [ge_iff_le, mul_nonneg_iff_of_pos_left hLi]
  have out : ∀ K K' : Vec3 ℝ, K = K' → (distance2 K P, signOf ((P.sub K).dot T.normal)) = triOut P K' T.normal := by
    rintro K K' rfl
    simp only [triOut, distance2_eq, signOf, gt_iff_lt]
  unfold triDistance
  simp only [o1, o2, o3, c1, c2, c3, pe1, pe2, pe3, pe4, qg1, qg2, qg3, qg4, bc1, bc2, bc3, bc4, l1]
  simp only [show (q ≤ G ∧ 0 ≤ q) ↔ (0 ≤ q ∧ q ≤ G) from and_comm]
  split_ifs
  · apply out; simp [triPoint]
  · apply out; simp [triPoint]
  · apply out; simp [triPoint]
  · apply out; simp only [triPoint, Vec3.add, Vec3.smul, Vec3.sub, Vec3.mk.injEq]; refine ⟨?_, ?_, ?_⟩ <;> ring
  · apply out; simp only [triPoint, Vec3.add, Vec3.smul, Vec3.sub, Vec3.mk.injEq]; refine ⟨?_, ?_, ?_⟩ <;> ring
  · apply out
    have : (G - q) / G = 1 - q / G := by field_simp
    rw [this]
    simp only [triPoint, Vec3.add, Vec3.smul, Vec3.sub, Vec3.mk.injEq]; refine ⟨?_, ?_, ?_⟩ <;> ring
  · apply out
    have hD' : E * G - F * F ≠ 0 := hD.ne'
    have hpn : (P.sub T.a).dot T.normal = L⁻¹ * (P.sub T.a).dot ((T.b.sub T.a).cross (T.c.sub T.a)) := by
      rw [hn]; simp only [Vec3.dot, Vec3.smul]; ring
    have hinv : L⁻¹ * L⁻¹ = (E * G - F * F)⁻¹ := by rw [← mul_inv, hLL]
    have main : Vec3.smul ((P.sub T.a).dot T.normal) T.normal
        = Vec3.smul ((E * G - F * F)⁻¹ * (P.sub T.a).dot ((T.b.sub T.a).cross (T.c.sub T.a))) ((T.b.sub T.a).cross (T.c.sub T.a)) := by
      rw [hpn, hn, ← hinv]
      simp only [Vec3.smul, Vec3.mk.injEq]
      refine ⟨?_, ?_, ?_⟩ <;> ring
    rw [main]
    obtain ⟨i1, i2, i3⟩ := frame_id (P.sub T.a) (T.b.sub T.a) (T.c.sub T.a)
    rw [hE, hF, hG, hp, hq] at i1 i2 i3
    generalize (P.sub T.a).dot ((T.b.sub T.a).cross (T.c.sub T.a)) = w at *
    generalize (T.b.sub T.a).cross (T.c.sub T.a) = m at *
    simp only [triPoint, Vec3.smul, Vec3.mk.injEq, Vec3.sub] at i1 i2 i3 ⊢
    clear hD hLL hinv hmm hL main
    generalize E * G - F * F = D at *
    refine ⟨?_, ?_, ?_⟩
    · field_simp; linear_combination i1
    · field_simp; linear_combination i2
    · field_simp; linear_combination i3

/-- The result is the squared distance to a nearest point and its side. -/
theorem triDistance_nearest {T : Tri} (hT : T.Proper) (P : Vec3 ℝ) :
    ∃ K, T.Nearest P K ∧ triDistance P T = triOut P K T.normal := by
  obtain ⟨hE, hG, hD, hH, h⟩ := triDistance_scalar hT P rfl rfl rfl rfl rfl
  rw [h]
  have mk : ∀ {s0 t0 : ℝ}, 0 ≤ s0 → 0 ≤ t0 → s0 + t0 ≤ 1 → _ → T.Nearest P (triPoint T s0 t0) :=
    fun a b c d => nearest_of (T := T) (P := P) a b c d
  revert h
  generalize (P.sub T.a).dot (T.b.sub T.a) = p at *
  generalize (P.sub T.a).dot (T.c.sub T.a) = q at *
  generalize (T.b.sub T.a).dot (T.b.sub T.a) = E at *
  generalize (T.b.sub T.a).dot (T.c.sub T.a) = F at *
  generalize (T.c.sub T.a).dot (T.c.sub T.a) = G at *
  intro h
  clear h
  split_ifs with h1 h2 h3 h4 h5 h6
  · refine ⟨_, mk le_rfl le_rfl (by norm_num) ?_, rfl⟩
    intro s t hs ht _
    nlinarith [mul_nonneg hs (sub_nonneg.mpr h1.2), mul_nonneg ht (sub_nonneg.mpr h1.1)]
  · refine ⟨_, mk zero_le_one le_rfl (by norm_num) ?_, rfl⟩
    intro s t hs ht hst
    nlinarith [mul_nonneg (sub_nonneg.mpr h2.1) (show (0:ℝ) ≤ 1 - s - t by linarith), mul_nonneg ht (sub_nonneg.mpr h2.2)]
  · refine ⟨_, mk le_rfl zero_le_one (by norm_num) ?_, rfl⟩
    intro s t hs ht hst
    nlinarith [mul_nonneg (sub_nonneg.mpr h3.2) (show (0:ℝ) ≤ 1 - s - t by linarith), mul_nonneg hs (sub_nonneg.mpr h3.1)]
  · obtain ⟨⟨a1, a2⟩, a3⟩ := h4
    refine ⟨_, mk (div_nonneg a1 hE.le) le_rfl (by rw [add_zero, div_le_one hE]; exact a2) ?_, rfl⟩
    intro s t hs ht hst
    have e1 : p - p / E * E - 0 * F = 0 := by field_simp; ring
    have e2 : q - p / E * F - 0 * G = - ((F * p - E * q) / E) := by field_simp; ring
    rw [e1, e2]
    have : 0 ≤ (F * p - E * q) / E := div_nonneg a3 hE.le
    nlinarith [mul_nonneg ht this]
  · obtain ⟨⟨a1, a2⟩, a3⟩ := h5
    set H := G - 2 * F + E with hHd
    have d0 : 0 ≤ (q - F - p + E) / H := div_nonneg a1 hH.le
    have d1 : (q - F - p + E) / H ≤ 1 := by rw [div_le_one hH]; simp only [hHd]; linarith
    refine ⟨_, mk (by linarith) d0 (by linarith) ?_, rfl⟩
    intro s t hs ht hst
    have e1 : p - (1 - (q - F - p + E) / H) * E - (q - F - p + E) / H * F = ((G - F) * (p - E) - (F - E) * (q - F)) / H := by
      field_simp; simp only [hHd]; ring
    have e2 : q - (1 - (q - F - p + E) / H) * F - (q - F - p + E) / H * G = ((G - F) * (p - E) - (F - E) * (q - F)) / H := by
      field_simp; simp only [hHd]; ring
    rw [e1, e2]
    have : 0 ≤ ((G - F) * (p - E) - (F - E) * (q - F)) / H := div_nonneg a3 hH.le
    nlinarith [mul_nonneg (show (0:ℝ) ≤ 1 - s - t by linarith) this]
  · obtain ⟨⟨a1, a2⟩, a3⟩ := h6
    refine ⟨_, mk le_rfl (div_nonneg a1 hG.le) (by rw [zero_add, div_le_one hG]; exact a2) ?_, rfl⟩
    intro s t hs ht hst
    have e1 : p - 0 * E - q / G * F = - ((F * q - G * p) / G) := by field_simp; ring
    have e2 : q - 0 * F - q / G * G = 0 := by field_simp; ring
    rw [e1, e2]
    have : 0 ≤ (F * q - G * p) / G := div_nonneg a3 hG.le
    nlinarith [mul_nonneg hs this]
  · -- the minimiser is an interior point
    obtain ⟨s0, t0, b1, b2, b3, b4⟩ := triQ_exists p q E F G
    have v00 := b4 0 0 le_rfl le_rfl (by norm_num)
    have v10 := b4 1 0 zero_le_one le_rfl (by norm_num)
    have v01 := b4 0 1 le_rfl zero_le_one (by norm_num)
    have b4' := b4
    obtain ⟨r1, hr1⟩ : ∃ r, r = p - s0 * E - t0 * F := ⟨_, rfl⟩
    obtain ⟨r2, hr2⟩ : ∃ r, r = q - s0 * F - t0 * G := ⟨_, rfl⟩
    simp only [← hr1, ← hr2] at v00 v10 v01 b4
    have z : r1 = 0 ∧ r2 = 0 := by
      rcases b1.eq_or_lt with c1 | c1
      · rcases b2.eq_or_lt with c2 | c2
        · exfalso
          apply h1
          rw [← c1, ← c2] at hr1 hr2 v10 v01
          constructor <;> linarith
        · rcases b3.eq_or_lt with c3 | c3
          · have : t0 = 1 := by linarith
            exfalso
            apply h3
            rw [this, ← c1] at hr1 hr2 v10 v01 v00
            constructor <;> linarith
          · exfalso
            have k : r2 = 0 := by
              rw [← c1] at v00 v01
              apply le_antisymm
              · by_contra hc; push Not at hc; nlinarith
              · by_contra hc; push Not at hc; nlinarith
            have k' : r1 ≤ 0 := by rw [← c1, k] at v10; linarith
            apply h6
            rw [← c1] at hr1 hr2
            have hq : q = t0 * G := by linarith
            have hp : p ≤ t0 * F := by linarith
            refine ⟨⟨by rw [hq]; positivity, by rw [hq]; nlinarith⟩, ?_⟩
            rw [hq]; nlinarith
      · rcases b2.eq_or_lt with c2 | c2
        · rcases b3.eq_or_lt with c3 | c3
          · have : s0 = 1 := by linarith
            exfalso
            apply h2
            rw [this, ← c2] at hr1 hr2 v10 v01 v00
            constructor <;> linarith
          · exfalso
            have k : r1 = 0 := by
              rw [← c2] at v00 v10
              apply le_antisymm
              · by_contra hc; push Not at hc; nlinarith
              · by_contra hc; push Not at hc; nlinarith
            have k' : r2 ≤ 0 := by rw [← c2, k] at v01; linarith
            apply h4
            rw [← c2] at hr1 hr2
            have hp : p = s0 * E := by linarith
            have hq : q ≤ s0 * F := by linarith
            refine ⟨⟨by rw [hp]; positivity, by rw [hp]; nlinarith⟩, ?_⟩
            rw [hp]; nlinarith
        · rcases b3.eq_or_lt with c3 | c3
          · exfalso
            have hs : s0 = 1 - t0 := by linarith
            have k : r1 = r2 := by
              rw [hs] at v10 v01
              have k1 : t0 * (r1 - r2) ≤ 0 := by nlinarith
              have k2 : (1 - t0) * (r2 - r1) ≤ 0 := by nlinarith
              have : r1 - r2 ≤ 0 := by by_contra hc; push Not at hc; nlinarith
              have : r2 - r1 ≤ 0 := by
                by_contra hc; push Not at hc
                have : 0 < 1 - t0 := by linarith
                nlinarith
              linarith
            have k' : 0 ≤ r1 := by rw [← k, hs] at v00; nlinarith
            apply h5
            have hp : p = r1 + s0 * E + t0 * F := by rw [hr1]; ring
            have hq : q = r1 + s0 * F + t0 * G := by rw [k, hr2]; ring
            rw [hs] at hp hq
            refine ⟨⟨?_, ?_⟩, ?_⟩
            · have : q - F - p + E = t0 * (G - 2 * F + E) := by rw [hp, hq]; ring
              rw [this]; positivity
            · have : p - F - (q - G) = s0 * (G - 2 * F + E) := by rw [hp, hq, hs]; ring
              have : 0 ≤ s0 * (G - 2 * F + E) := by positivity
              linarith
            · have : (G - F) * (p - E) - (F - E) * (q - F) = r1 * (G - 2 * F + E) := by rw [hp, hq]; ring
              rw [this]; positivity
          · -- interior
            have near : ∀ x y : ℝ, x * r1 + y * r2 ≤ 0 := by
              intro x y
              -- a small step in direction (x, y)
              obtain ⟨ε, e0, e1, e2, e3⟩ : ∃ ε : ℝ, 0 < ε ∧ 0 ≤ s0 + ε * x ∧ 0 ≤ t0 + ε * y ∧ s0 + ε * x + (t0 + ε * y) ≤ 1 := by
                have m0 : 0 < min (min s0 t0) (1 - s0 - t0) := by
                  apply lt_min (lt_min c1 c2); linarith
                set m := min (min s0 t0) (1 - s0 - t0)
                have m1 : m ≤ s0 := (min_le_left _ _).trans (min_le_left _ _)
                have m2 : m ≤ t0 := (min_le_left _ _).trans (min_le_right _ _)
                have m3 : m ≤ 1 - s0 - t0 := min_le_right _ _
                set w := |x| + |y| + 1 with hw
                have w0 : 0 < w := by positivity
                have hx : |m / w * x| ≤ m := by
                  rw [abs_mul, abs_of_pos (div_pos m0 w0), div_mul_eq_mul_div, div_le_iff₀ w0]
                  have : |x| ≤ w := by have := abs_nonneg y; linarith
                  nlinarith
                have hxy : |m / w * x| + |m / w * y| ≤ m := by
                  rw [abs_mul, abs_mul, abs_of_pos (div_pos m0 w0), ← mul_add, div_mul_eq_mul_div, div_le_iff₀ w0]
                  nlinarith
                have := abs_le.mp hx
                have a1 := neg_abs_le (m / w * x)
                have a2 := le_abs_self (m / w * x)
                have a3 := neg_abs_le (m / w * y)
                have a4 := le_abs_self (m / w * y)
                have a5 := abs_nonneg (m / w * x)
                have a6 := abs_nonneg (m / w * y)
                exact ⟨m / w, div_pos m0 w0, by linarith, by linarith, by linarith⟩
              have := b4 (s0 + ε * x) (t0 + ε * y) e1 e2 e3
              have : ε * (x * r1 + y * r2) ≤ 0 := by linarith
              by_contra hc; push Not at hc
              nlinarith
            have n1 := near r1 r2
            constructor <;> nlinarith [mul_self_nonneg r1, mul_self_nonneg r2]
    obtain ⟨z1, z2⟩ := z
    have hp : p = s0 * E + t0 * F := by linarith
    have hq : q = s0 * F + t0 * G := by linarith
    have e1 : (G * p - F * q) / (E * G - F * F) = s0 := by
      rw [div_eq_iff hD.ne', hp, hq]; ring
    have e2 : (E * q - F * p) / (E * G - F * F) = t0 := by
      rw [div_eq_iff hD.ne', hp, hq]; ring
    rw [e1, e2]
    exact ⟨_, mk b1 b2 b3 b4', rfl⟩

end
end Isomesh
