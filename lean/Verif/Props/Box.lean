import Verif.Proofs.BoxCell
import Verif.Props.FlatDemo

/-! C96: axis-aligned boxes are reproduced exactly by dual contouring, with their edges and corners. -/

namespace Isomesh
open Spec

variable {f : ScalarField ℝ} {sv : ZeroFinder ℝ} {origin lo hi : Vec3 ℝ} {step : ℝ}

/-- A mesh made of quads whose vertices are the expected ones. -/
structure BoxMesh (f : ScalarField ℝ) (r : PlacedMesh ℝ) (origin : Vec3 ℝ) (step : ℝ) (lo hi : Vec3 ℝ) (In : IVec3 → Prop) (es : List LEdge)
    (Q : LEdge → List (Nat × Nat × Nat)) (v : LEdge → Fin 4 → Nat) (cell : Nat → IVec3) : Prop where
  dual : DualMesh f r origin step In es Q v cell
  covers : ∀ e ∈ es, CoversQuad (v e) (Q e)
  pos : ∀ e ∈ es, ∀ i, ∃ a, r.mesh.vertices[v e i]? = some a ∧
    ∀ b, (meshToWorld r a.position).get b = boxCoord origin step lo hi b ((cell (v e i)).get b)

theorem BoxMesh.cell_mem {In es Q v cell} {r : PlacedMesh ℝ} (h : BoxMesh f r origin step lo hi In es Q v cell) {e : LEdge} (he : e ∈ es) (i : Fin 4) :
    cell (v e i) ∈ cellsAroundEdge e.axis e.at_ := by
  rw [h.dual.cells e he]
  fin_cases i <;> simp

theorem boxCoord_face {a : Axis} {i : Int} (h : ¬ (Meets origin step lo hi a i ↔ Meets origin step lo hi a (i + 1))) :
    boxCoord origin step lo hi a i = lo.get a ∨ boxCoord origin step lo hi a i = hi.get a := by
  unfold boxCoord
  by_cases h1 : Meets origin step lo hi a i
  · rw [if_pos h1, if_neg fun h2 => h ⟨fun _ => h2, fun _ => h1⟩]; right; rfl
  · rw [if_neg h1]; left; rfl

theorem boxCoord_inside (hstep : 0 < step) {a : Axis} {i : Int} (h : Meets origin step lo hi a i ∨ Meets origin step lo hi a (i + 1)) :
    lo.get a ≤ boxCoord origin step lo hi a i ∧ boxCoord origin step lo hi a i ≤ hi.get a := by
  have hs := planeCoord_succ (origin := origin) (step := step) a i
  have hle : lo.get a ≤ hi.get a := by rcases h with h | h <;> exact le_trans h.1 h.2
  unfold boxCoord
  by_cases h1 : Meets origin step lo hi a i
  · rw [if_pos h1]
    by_cases h2 : Meets origin step lo hi a (i + 1)
    · rw [if_pos h2]
      constructor
      · linarith [h1.1]
      · linarith [h2.2]
    · rw [if_neg h2]; exact ⟨hle, le_refl _⟩
  · rw [if_neg h1]; exact ⟨le_refl _, hle⟩

theorem convex_bounds {α β γ x y z l u : ℝ} (hα : 0 ≤ α) (hβ : 0 ≤ β) (hγ : 0 ≤ γ) (hs : α + β + γ = 1) (hx : l ≤ x ∧ x ≤ u) (hy : l ≤ y ∧ y ≤ u)
    (hz : l ≤ z ∧ z ≤ u) : l ≤ α * x + β * y + γ * z ∧ α * x + β * y + γ * z ≤ u := by
  have e : α = 1 - β - γ := by linarith
  subst e
  constructor
  · nlinarith [mul_nonneg hα (sub_nonneg.2 hx.1), mul_nonneg hβ (sub_nonneg.2 hy.1), mul_nonneg hγ (sub_nonneg.2 hz.1)]
  · nlinarith [mul_nonneg hα (sub_nonneg.2 hx.2), mul_nonneg hβ (sub_nonneg.2 hy.2), mul_nonneg hγ (sub_nonneg.2 hz.2)]

/-- The mesh is part of the surface. -/
theorem BoxMesh.sound {In es Q v cell} {r : PlacedMesh ℝ} (h : BoxMesh f r origin step lo hi In es Q v cell) (hf : BoxField f lo hi)
    (hstep : 0 < step) {q : Vec3 ℝ} (hq : OnMesh r q) : OnBox lo hi q := by
  obtain ⟨t, ht, a, b, c, ha, hb, hc, α, β, γ, hα, hβ, hγ, hsum, rfl⟩ := hq
  rw [h.dual.tris] at ht
  obtain ⟨e, he, ht⟩ := List.mem_flatMap.1 ht
  obtain ⟨⟨i, hi'⟩, ⟨j, hj⟩, ⟨k, hk⟩⟩ := (h.dual.quad e he).corner t ht
  have hcr := ((h.dual.mem e).1 he).1
  obtain ⟨c1, c2⟩ := (crosses_box hf _ _).1 hcr
  have key : ∀ (i : Fin 4) (w : MeshVertex ℝ), r.mesh.vertices[v e i]? = some w →
      (meshToWorld r w.position).get e.axis = boxCoord origin step lo hi e.axis (e.at_.get e.axis) ∧
      ∀ x, lo.get x ≤ (meshToWorld r w.position).get x ∧ (meshToWorld r w.position).get x ≤ hi.get x := by
    intro i w hw
    obtain ⟨w', hw', hpos⟩ := h.pos e he i
    rw [hw] at hw'; cases hw'
    have har := around_get (h.cell_mem he i)
    refine ⟨by rw [hpos, (har _).1 rfl], fun x => ?_⟩
    rw [hpos]
    apply boxCoord_inside hstep
    by_cases hx : x = e.axis
    · subst hx
      rw [(har _).1 rfl]
      by_contra hcon
      push Not at hcon
      exact c2 ⟨fun h' => absurd h' hcon.1, fun h' => absurd h' hcon.2⟩
    · rcases (har x).2 hx with e1 | e1
      · rw [e1]; exact Or.inl (c1 x hx)
      · right
        rw [e1, sub_add_cancel]; exact c1 x hx
  rw [hi'] at ha
  rw [hj] at hb
  rw [hk] at hc
  obtain ⟨a1, a2⟩ := key i a ha
  obtain ⟨b1, b2⟩ := key j b hb
  obtain ⟨d1, d2⟩ := key k c hc
  have hget : ∀ x : Axis, (⟨α * (meshToWorld r a.position).x + β * (meshToWorld r b.position).x + γ * (meshToWorld r c.position).x,
      α * (meshToWorld r a.position).y + β * (meshToWorld r b.position).y + γ * (meshToWorld r c.position).y,
      α * (meshToWorld r a.position).z + β * (meshToWorld r b.position).z + γ * (meshToWorld r c.position).z⟩ : Vec3 ℝ).get x =
      α * (meshToWorld r a.position).get x + β * (meshToWorld r b.position).get x + γ * (meshToWorld r c.position).get x := by
    intro x; cases x <;> rfl
  refine ⟨fun x => ?_, e.axis, ?_⟩
  · rw [hget]
    exact convex_bounds hα hβ hγ hsum (a2 x) (b2 x) (d2 x)
  · rw [hget, a1, b1, d1]
    have : ∀ y : ℝ, α * y + β * y + γ * y = y := by
      intro y; rw [← add_mul, ← add_mul, hsum, one_mul]
    rw [this]
    exact boxCoord_face c2

/-- There is a point of the lattice between the two coordinates of the vertices of neighbouring cells. -/
theorem find_cell (hstep : 0 < step) (hthick : Thick step lo hi) (a : Axis) {x : ℝ} (h1 : lo.get a ≤ x) (h2 : x ≤ hi.get a) :
    ∃ j : Int, Meets origin step lo hi a j ∧ boxCoord origin step lo hi a (j - 1) ≤ x ∧ x ≤ boxCoord origin step lo hi a j := by
  obtain ⟨j0, k1, k2⟩ : ∃ j0 : Int, planeCoord origin step a (j0 - 1) < lo.get a ∧ lo.get a ≤ planeCoord origin step a j0 := by
    refine ⟨⌈(lo.get a - origin.get a) / step⌉, ?_, ?_⟩
    · unfold planeCoord
      have := Int.ceil_lt_add_one ((lo.get a - origin.get a) / step)
      have h' : ((⌈(lo.get a - origin.get a) / step⌉ : ℝ) - 1) * step < (lo.get a - origin.get a) := by
        rw [← lt_div_iff₀ hstep]; linarith
      push_cast
      linarith
    · unfold planeCoord
      have := Int.le_ceil ((lo.get a - origin.get a) / step)
      rw [div_le_iff₀ hstep] at this
      linarith
  have hth := hthick a
  have hsucc := fun i => planeCoord_succ (origin := origin) (step := step) a i
  have k3 : planeCoord origin step a j0 ≤ hi.get a := by
    have := hsucc (j0 - 1)
    rw [sub_add_cancel] at this
    linarith
  -- planes grow without bound
  have hgrow : ∀ n : Nat, planeCoord origin step a (j0 + n) = planeCoord origin step a j0 + n * step := by
    intro n; unfold planeCoord; push_cast; ring
  obtain ⟨N, hN⟩ : ∃ N : Nat, hi.get a < planeCoord origin step a (j0 + N) := by
    obtain ⟨N, hN⟩ := exists_nat_gt ((hi.get a - planeCoord origin step a j0) / step)
    refine ⟨N, ?_⟩
    rw [div_lt_iff₀ hstep] at hN
    rw [hgrow]; linarith
  -- the first plane whose cell reaches beyond the point
  have hlast : ∃ n : Nat, Meets origin step lo hi a (j0 + n) ∧ x ≤ boxCoord origin step lo hi a (j0 + n) := by
    have hex : ∃ n : Nat, hi.get a < planeCoord origin step a (j0 + n) := ⟨N, hN⟩
    classical
    have hm := fun k (hk : k < Nat.find hex) => Nat.find_min hex hk
    have hs := Nat.find_spec hex
    set m := Nat.find hex with hmd
    have hm0 : 0 < m := by
      rcases Nat.eq_zero_or_pos m with e | e
      · rw [e, hgrow] at hs
        simp at hs
        linarith
      · exact e
    have hprev := hm (m - 1) (Nat.sub_lt hm0 one_pos)
    have hM : Meets origin step lo hi a (j0 + ((m - 1 : Nat) : Int)) := by
      refine ⟨?_, not_lt.1 hprev⟩
      rw [hgrow]
      have : (0 : ℝ) ≤ ((m - 1 : Nat) : ℝ) * step := by positivity
      linarith
    refine ⟨m - 1, hM, ?_⟩
    have hnext : j0 + ((m - 1 : Nat) : Int) + 1 = j0 + (m : Int) := by omega
    unfold boxCoord
    rw [if_pos hM, hnext, if_neg fun h' => absurd h'.2 (not_le.2 hs)]
    exact h2
  classical
  have hmin := fun k (hk : k < Nat.find hlast) => Nat.find_min hlast hk
  obtain ⟨hs1, hs2⟩ := Nat.find_spec hlast
  set n := Nat.find hlast with hn
  refine ⟨j0 + n, hs1, ?_, hs2⟩
  rcases Nat.eq_zero_or_pos n with e | e
  · have hz : j0 + (n : Int) - 1 = j0 - 1 := by omega
    rw [hz]
    unfold boxCoord
    rw [if_neg fun h' => absurd h'.1 (not_le.2 k1)]
    exact h1
  · have hprev := hmin (n - 1) (Nat.sub_lt e one_pos)
    have hz : j0 + (n : Int) - 1 = j0 + ((n - 1 : Nat) : Int) := by omega
    rw [hz]
    have hM : Meets origin step lo hi a (j0 + ((n - 1 : Nat) : Int)) := by
      constructor
      · rw [hgrow]
        have : (0 : ℝ) ≤ ((n - 1 : Nat) : ℝ) * step := by positivity
        linarith
      · have := hs1.2
        rw [hgrow] at this ⊢
        have hc : ((n - 1 : Nat) : ℝ) ≤ n := by exact_mod_cast Nat.sub_le _ _
        nlinarith
    by_contra hcon
    exact hprev ⟨hM, (not_le.1 hcon).le⟩

/-- The planes next to the faces. -/
theorem find_face (hstep : 0 < step) (hthick : Thick step lo hi) (a : Axis) :
    (∃ i : Int, ¬ Meets origin step lo hi a i ∧ Meets origin step lo hi a (i + 1)) ∧
    ∃ i : Int, Meets origin step lo hi a i ∧ ¬ Meets origin step lo hi a (i + 1) := by
  have hth := hthick a
  have hsucc := fun i => planeCoord_succ (origin := origin) (step := step) a i
  constructor
  · refine ⟨⌈(lo.get a - origin.get a) / step⌉ - 1, ?_⟩
    have c1 := Int.ceil_lt_add_one ((lo.get a - origin.get a) / step)
    have c2 := Int.le_ceil ((lo.get a - origin.get a) / step)
    rw [div_le_iff₀ hstep] at c2
    have c3 : ((⌈(lo.get a - origin.get a) / step⌉ : ℝ) - 1) * step < (lo.get a - origin.get a) := by
      rw [← lt_div_iff₀ hstep]; linarith
    rw [sub_add_cancel]
    unfold Meets planeCoord
    push_cast
    refine ⟨fun h' => ?_, ?_, ?_⟩ <;> linarith
  · refine ⟨⌊(hi.get a - origin.get a) / step⌋, ?_⟩
    have c1 := Int.lt_floor_add_one ((hi.get a - origin.get a) / step)
    have c2 := Int.floor_le ((hi.get a - origin.get a) / step)
    rw [le_div_iff₀ hstep] at c2
    rw [div_lt_iff₀ hstep] at c1
    unfold Meets planeCoord
    push_cast
    refine ⟨⟨?_, ?_⟩, fun h' => ?_⟩
    · linarith
    · linarith
    · linarith [h'.2]

theorem segment_param {l u x : ℝ} (h1 : l ≤ x) (h2 : x ≤ u) : ∃ s, 0 ≤ s ∧ s ≤ 1 ∧ x = l + s * (u - l) := by
  rcases eq_or_lt_of_le (le_trans h1 h2) with e | e
  · exact ⟨0, le_refl _, zero_le_one, by rw [zero_mul, add_zero]; linarith⟩
  · refine ⟨(x - l) / (u - l), div_nonneg (by linarith) (by linarith), (div_le_one (by linarith)).2 (by linarith), ?_⟩
    rw [div_mul_cancel₀ _ (by linarith)]; ring

theorem half_point {r : PlacedMesh ℝ} {ts : List (Nat × Nat × Nat)} (hts : ∀ t ∈ ts, t ∈ triangles r.mesh.indices) {i j k : Nat} (h : HasHalf ts i j k)
    {a b c : MeshVertex ℝ} (ha : r.mesh.vertices[i]? = some a) (hb : r.mesh.vertices[j]? = some b) (hc : r.mesh.vertices[k]? = some c)
    {α β γ : ℝ} (hα : 0 ≤ α) (hβ : 0 ≤ β) (hγ : 0 ≤ γ) (hs : α + β + γ = 1) {q : Vec3 ℝ}
    (hq : ∀ x, q.get x = α * (meshToWorld r a.position).get x + β * (meshToWorld r b.position).get x + γ * (meshToWorld r c.position).get x) :
    OnMesh r q := by
  rcases h with h | h
  · refine ⟨_, hts _ h, a, b, c, ha, hb, hc, α, β, γ, hα, hβ, hγ, hs, ?_⟩
    exact Vec3.ext (hq .X) (hq .Y) (hq .Z)
  · refine ⟨_, hts _ h, a, c, b, ha, hc, hb, α, γ, β, hα, hγ, hβ, by linarith, ?_⟩
    refine Vec3.ext ?_ ?_ ?_
    · have := hq .X; simp only [Vec3.get] at this; linarith
    · have := hq .Y; simp only [Vec3.get] at this; linarith
    · have := hq .Z; simp only [Vec3.get] at this; linarith

/-- The frame of a quad. -/
def frameB : Axis → Axis
  | .X => .Y | .Y => .Z | .Z => .X

def frameC : Axis → Axis
  | .X => .Z | .Y => .X | .Z => .Y

theorem frame_cases (D x : Axis) : x = D ∨ x = frameB D ∨ x = frameC D := by
  cases D <;> cases x <;> simp [frameB, frameC]

theorem frame_ne (D : Axis) : frameB D ≠ D ∧ frameC D ≠ D := by cases D <;> simp [frameB, frameC]

theorem frame_cells {D : Axis} {p c0 c1 c2 c3 : IVec3} (h : cellsAroundEdge D p = [c0, c1, c2, c3]) :
    (c0.get (frameB D) = p.get (frameB D) - 1 ∧ c0.get (frameC D) = p.get (frameC D) - 1) ∧
    (c1.get (frameB D) = p.get (frameB D) ∧ c1.get (frameC D) = p.get (frameC D) - 1) ∧
    (c2.get (frameB D) = p.get (frameB D) ∧ c2.get (frameC D) = p.get (frameC D)) ∧
    (c3.get (frameB D) = p.get (frameB D) - 1 ∧ c3.get (frameC D) = p.get (frameC D)) := by
  cases D <;>
  · simp only [cellsAroundEdge, List.cons.injEq, and_true] at h
    obtain ⟨rfl, rfl, rfl, rfl⟩ := h
    simp [frameB, frameC, shift, IVec3.get]
    try omega

theorem point_at (D : Axis) (i j k : Int) : ∃ p : IVec3, p.get D = i ∧ p.get (frameB D) = j ∧ p.get (frameC D) = k := by
  cases D
  · exact ⟨⟨i, j, k⟩, rfl, rfl, rfl⟩
  · exact ⟨⟨k, i, j⟩, rfl, rfl, rfl⟩
  · exact ⟨⟨j, k, i⟩, rfl, rfl, rfl⟩

/-- The surface is part of the mesh. -/
theorem BoxMesh.complete {In es Q v cell} {r : PlacedMesh ℝ} (h : BoxMesh f r origin step lo hi In es Q v cell) (hf : BoxField f lo hi)
    (hstep : 0 < step) (hthick : Thick step lo hi)
    (hin : ∀ D p, Crosses f (worldPos origin step) D p → ∀ P ∈ cellsAroundEdge D p, In P) {q : Vec3 ℝ} (hq : OnBox lo hi q) : OnMesh r q := by
  obtain ⟨hq1, D, hD⟩ := hq
  obtain ⟨i, hcr, hval⟩ : ∃ i : Int, ¬ (Meets origin step lo hi D i ↔ Meets origin step lo hi D (i + 1)) ∧
      boxCoord origin step lo hi D i = q.get D := by
    obtain ⟨⟨i, k1, k2⟩, j, k3, k4⟩ := find_face (origin := origin) hstep hthick D
    rcases hD with hD | hD
    · refine ⟨i, fun hc => k1 (hc.2 k2), ?_⟩
      unfold boxCoord
      rw [if_neg k1, hD]
    · refine ⟨j, fun hc => k4 (hc.1 k3), ?_⟩
      unfold boxCoord
      rw [if_pos k3, if_neg k4, hD]
  obtain ⟨j, hj, j1, j2⟩ := find_cell (origin := origin) hstep hthick (frameB D) (hq1 (frameB D)).1 (hq1 (frameB D)).2
  obtain ⟨k, hk, k1, k2⟩ := find_cell (origin := origin) hstep hthick (frameC D) (hq1 (frameC D)).1 (hq1 (frameC D)).2
  obtain ⟨p, p1, p2, p3⟩ := point_at D i j k
  have hcross : Crosses f (worldPos origin step) D p := by
    refine (crosses_box hf D p).2 ⟨fun a ha => ?_, by rw [p1]; exact hcr⟩
    rcases frame_cases D a with e | e | e
    · exact absurd e ha
    · rw [e, p2]; exact hj
    · rw [e, p3]; exact hk
  have he : (⟨D, p⟩ : LEdge) ∈ es := (h.dual.mem ⟨D, p⟩).2 ⟨hcross, hin D p hcross⟩
  have hts : ∀ t ∈ Q ⟨D, p⟩, t ∈ triangles r.mesh.indices := by
    intro t ht
    rw [h.dual.tris]
    exact List.mem_flatMap.2 ⟨_, he, ht⟩
  obtain ⟨⟨b0, c0⟩, ⟨b1, c1⟩, ⟨b2, c2⟩, ⟨b3, c3⟩⟩ := frame_cells (h.dual.cells _ he)
  obtain ⟨w0, hw0, q0⟩ := h.pos _ he 0
  obtain ⟨w1, hw1, q1⟩ := h.pos _ he 1
  obtain ⟨w2, hw2, q2⟩ := h.pos _ he 2
  obtain ⟨w3, hw3, q3⟩ := h.pos _ he 3
  have hd : ∀ l : Fin 4, (cell (v ⟨D, p⟩ l)).get D = i := by
    intro l
    rw [(around_get (h.cell_mem he l) D).1 rfl, p1]
  obtain ⟨s, s0, s1, hs⟩ := segment_param j1 j2
  obtain ⟨t, t0, t1, ht⟩ := segment_param k1 k2
  have key : ∀ (l m n : Fin 4) (a b c : MeshVertex ℝ), (∀ x, (meshToWorld r a.position).get x = boxCoord origin step lo hi x ((cell (v ⟨D, p⟩ l)).get x)) →
      (∀ x, (meshToWorld r b.position).get x = boxCoord origin step lo hi x ((cell (v ⟨D, p⟩ m)).get x)) →
      (∀ x, (meshToWorld r c.position).get x = boxCoord origin step lo hi x ((cell (v ⟨D, p⟩ n)).get x)) → ∀ α β γ : ℝ, α + β + γ = 1 →
      q.get (frameB D) = α * boxCoord origin step lo hi (frameB D) ((cell (v ⟨D, p⟩ l)).get (frameB D)) +
        β * boxCoord origin step lo hi (frameB D) ((cell (v ⟨D, p⟩ m)).get (frameB D)) +
        γ * boxCoord origin step lo hi (frameB D) ((cell (v ⟨D, p⟩ n)).get (frameB D)) →
      q.get (frameC D) = α * boxCoord origin step lo hi (frameC D) ((cell (v ⟨D, p⟩ l)).get (frameC D)) +
        β * boxCoord origin step lo hi (frameC D) ((cell (v ⟨D, p⟩ m)).get (frameC D)) +
        γ * boxCoord origin step lo hi (frameC D) ((cell (v ⟨D, p⟩ n)).get (frameC D)) →
      ∀ x, q.get x = α * (meshToWorld r a.position).get x + β * (meshToWorld r b.position).get x + γ * (meshToWorld r c.position).get x := by
    intro l m n a b c ha hb hc α β γ hsum hB hC x
    rcases frame_cases D x with e | e | e
    · rw [ha, hb, hc, e, hd, hd, hd, hval, ← add_mul, ← add_mul, hsum, one_mul]
    · rw [ha, hb, hc, e, hB]
    · rw [ha, hb, hc, e, hC]
  rcases h.covers _ he with ⟨h1, h2⟩ | ⟨h1, h2⟩
  · by_cases hst : s + t ≤ 1
    · refine half_point hts h1 hw0 hw1 hw3 (α := 1 - s - t) (β := s) (γ := t) (by linarith) s0 t0 (by ring)
        (key 0 1 3 _ _ _ q0 q1 q3 _ _ _ (by ring) ?_ ?_)
      · rw [b0, b1, b3, p2, hs]; ring
      · rw [c0, c1, c3, p3, ht]; ring
    · refine half_point hts h2 hw1 hw2 hw3 (α := 1 - t) (β := s + t - 1) (γ := 1 - s) (by linarith) (by linarith) (by linarith) (by ring)
        (key 1 2 3 _ _ _ q1 q2 q3 _ _ _ (by ring) ?_ ?_)
      · rw [b1, b2, b3, p2, hs]; ring
      · rw [c1, c2, c3, p3, ht]; ring
  · by_cases hst : t ≤ s
    · refine half_point hts h1 hw0 hw1 hw2 (α := 1 - s) (β := s - t) (γ := t) (by linarith) (by linarith) t0 (by ring)
        (key 0 1 2 _ _ _ q0 q1 q2 _ _ _ (by ring) ?_ ?_)
      · rw [b0, b1, b2, p2, hs]; ring
      · rw [c0, c1, c2, p3, ht]; ring
    · refine half_point hts h2 hw0 hw2 hw3 (α := 1 - t) (β := s) (γ := t - s) (by linarith) s0 (by linarith) (by ring)
        (key 0 2 3 _ _ _ q0 q2 q3 _ _ _ (by ring) ?_ ?_)
      · rw [b0, b2, b3, p2, hs]; ring
      · rw [c0, c2, c3, p3, ht]; ring

/-- A crossed edge of a box has its cells next to the box. -/
theorem box_cells (hstep : 0 < step) (hf : BoxField f lo hi) {from_ to_ : IVec3} (hb : BoxBetween origin step lo hi from_ to_) {D : Axis} {p : IVec3}
    (hc : Crosses f (worldPos origin step) D p) {P : IVec3} (hP : P ∈ cellsAroundEdge D p) (a : Axis) : from_.get a ≤ P.get a ∧ P.get a < to_.get a := by
  obtain ⟨c1, c2⟩ := (crosses_box hf D p).1 hc
  have hM : ∀ i : Int, Meets origin step lo hi a i → from_.get a < i ∧ i < to_.get a := by
    intro i hi'
    obtain ⟨b1, b2⟩ := hb a
    obtain ⟨m1, m2⟩ := hi'
    unfold planeCoord at m1 m2
    constructor
    · have : (from_.get a : ℝ) < i := by
        refine lt_of_mul_lt_mul_right (a := step) ?_ hstep.le
        linarith
      exact_mod_cast this
    · have : (i : ℝ) < to_.get a := by
        refine lt_of_mul_lt_mul_right (a := step) ?_ hstep.le
        linarith
      exact_mod_cast this
  obtain ⟨r1, r2⟩ := around_get hP a
  by_cases ha : a = D
  · rw [r1 ha]
    subst ha
    by_cases h1 : Meets origin step lo hi a (p.get a)
    · have := hM _ h1; omega
    · by_cases h2 : Meets origin step lo hi a (p.get a + 1)
      · have := hM _ h2; omega
      · exact absurd ⟨fun h' => absurd h' h1, fun h' => absurd h' h2⟩ c2
  · have := hM _ (c1 a ha)
    rcases r2 ha with e | e <;> omega

/-- The four cells around a crossed edge have that edge. -/
theorem around_edge {D : Axis} {p P : IVec3} (h : P ∈ cellsAroundEdge D p) : EdgeOfCell P D p := by
  intro u hu
  cases D <;>
  · simp only [cellsAroundEdge, List.mem_cons, List.not_mem_nil, or_false] at h
    simp only [edgeVertices, List.mem_cons, List.not_mem_nil, or_false] at hu
    rcases h with rfl | rfl | rfl | rfl <;> rcases hu with rfl | rfl <;> simp [cellVertices, shift]

/-- The statement of C96 for one mesh. -/
theorem BoxMesh.result {In es Q v cell} {r : PlacedMesh ℝ} (h : BoxMesh f r origin step lo hi In es Q v cell) (hf : BoxField f lo hi)
    (hstep : 0 < step) {from_ to_ : IVec3} (hIn : ∀ P : IVec3, (∀ a, from_.get a ≤ P.get a ∧ P.get a < to_.get a) → In P) :
    (∀ q, OnMesh r q → OnBox lo hi q) ∧
    (Thick step lo hi → BoxBetween origin step lo hi from_ to_ → ∀ q, OnMesh r q ↔ OnBox lo hi q) :=
  ⟨fun _ hq => h.sound hf hstep hq, fun ht hb _ => ⟨fun hq => h.sound hf hstep hq, fun hq => h.complete hf hstep ht
    (fun _ _ hc _ hP => hIn _ fun a => box_cells hstep hf hb hc hP a) hq⟩⟩

section
variable {g g' : Grid ℝ}

/-- C96 (uniform dual contouring): the mesh of an axis-aligned box lies on the surface of the box; if the box is inside the grid and at least one step
thick, the mesh is exactly the surface of the box, edges and corners included. -/
theorem C96_uniform (hg : g.Reachable) (hstep : 0 < g.step) (hf : BoxField f lo hi) (hp : ProperField f) (h : g.fill f sv = some g')
    (hoff : OffLattice g.globalPos g.step lo hi) (hfind : FindsFaces f sv g.globalPos g.step lo hi) {env : DcEnv ℝ} (hsort : IsSort env.srt)
    {solver q' : Qef ℝ 3} (ho : ExactOptions env solver) {r : PlacedMesh ℝ} (hr : dualContouring env g' solver = some (q', r)) :
    (∀ q, OnMesh r q → OnBox lo hi q) ∧
    (Thick g.step lo hi → BoxBetween g.globalPos g.step lo hi ⟨-g.maxCoord, -g.maxCoord, -g.maxCoord⟩ ⟨g.maxCoord, g.maxCoord, g.maxCoord⟩ →
      ∀ q, OnMesh r q ↔ OnBox lo hi q) := by
  obtain ⟨es, Q, v, cell, hD, hV⟩ := uniform_solved hg hstep hp h hsort ho.pinv_pos hr
  have hF := C07_filled hg hp h
  obtain ⟨g'', hfill, ⟨-, hhalf, hpos, hst⟩, -⟩ := C06_fill_materials hg f sv
  rw [h] at hfill; cases hfill
  have hm : g'.maxCoord = g.maxCoord := hhalf
  obtain ⟨-, q1, r', hr', r1, r2, -⟩ := C18_vertices (env := env) hF hsort ho.pinv_pos
  rw [hr] at hr'; cases hr'
  have hM : BoxMesh f r g.globalPos g.step lo hi (CellIn g.maxCoord) es Q v cell := by
    refine ⟨hD, fun e he => (hV e he).1, fun e he i => ?_⟩
    obtain ⟨a, ha, hd⟩ := (hV e he).2 i
    refine ⟨a, ha, fun b => ?_⟩
    have hc : cell (v e i) ∈ cellsAroundEdge e.axis e.at_ := by
      rw [hD.cells e he]; fin_cases i <;> simp
    have := box_position hg hstep hf hp h hoff hfind ho (by rw [hm]; exact ((hD.mem e).1 he).2 _ hc) (DualVertex.solvedAt hd)
      ⟨e.axis, e.at_, ((hD.mem e).1 he).1, around_edge hc⟩ b
    rw [toVecN_axis] at this
    rw [meshToWorld_get, r1, r2, hpos, hst]
    exact this
  refine hM.result hf hstep fun P hP => cellIn_iff.2 ?_
  have hx := hP .X
  have hy := hP .Y
  have hz := hP .Z
  simp only [IVec3.get] at hx hy hz
  exact ⟨hx.1, hx.2, hy.1, hy.2, hz.1, hz.2⟩

/-- C96 (DC octree): the same for the mesh of an octree that was built without simplification. -/
theorem C96_octree (hg : g.Reachable) (hstep : 0 < g.step) (hf : BoxField f lo hi) (hp : ProperField f) (h : g.fill f sv = some g')
    (hoff : OffLattice g.globalPos g.step lo hi) (hfind : FindsFaces f sv g.globalPos g.step lo hi) {env : DcEnv ℝ}
    {solver q' : Qef ℝ 3} (ho : ExactOptions env solver) {o o' o'' : DcOctree ℝ} {epsilon : ℝ}
    (ho1 : o.globalPos = g.globalPos) (ho2 : o.globalScale = g.step) (hin : CubeIn g'.maxCoord (rootCube o.level))
    (hb : o.build env g' solver epsilon false = some (q', o')) {r : PlacedMesh ℝ} (hc : o'.contour = some (r, o'')) :
    (∀ q, OnMesh r q → OnBox lo hi q) ∧
    (Thick g.step lo hi → BoxBetween g.globalPos g.step lo hi (rootCube o.level).lo
        (shift (rootCube o.level).lo (rootCube o.level).side (rootCube o.level).side (rootCube o.level).side) →
      ∀ q, OnMesh r q ↔ OnBox lo hi q) := by
  obtain ⟨es, Q, v, cell, hD, hV⟩ := octree_solved hg hstep hp h ho.pinv_pos ho1 ho2 hin hb hc
  have hF := C07_filled hg hp h
  obtain ⟨r', o3, visits, hc', r1, r2, -⟩ := C22_contour hF hin hb
  rw [hc] at hc'; cases hc'
  have hM : BoxMesh f r g.globalPos g.step lo hi (rootCube o.level).Has es Q v cell := by
    refine ⟨hD, fun e he => (hV e he).1, fun e he i => ?_⟩
    obtain ⟨a, ha, hd⟩ := (hV e he).2 i
    refine ⟨a, ha, fun b => ?_⟩
    have hcm : cell (v e i) ∈ cellsAroundEdge e.axis e.at_ := by
      rw [hD.cells e he]; fin_cases i <;> simp
    have := box_position hg hstep hf hp h hoff hfind ho (cubeIn_has hin (((hD.mem e).1 he).2 _ hcm)) (DualVertex.solvedAt hd)
      ⟨e.axis, e.at_, ((hD.mem e).1 he).1, around_edge hcm⟩ b
    rw [toVecN_axis] at this
    rw [meshToWorld_get, r1, r2, ho1, ho2]
    exact this
  refine hM.result hf hstep fun P hP => ?_
  have hx := hP .X
  have hy := hP .Y
  have hz := hP .Z
  simp only [IVec3.get, shift] at hx hy hz
  exact ⟨hx, hy, hz⟩

end

theorem rf_linear (steps : Int) (C : Axis) (x0 y0 z0 c1 : ℝ) (f : ScalarField ℝ) (α β : ℝ)
    (hβ : β ≠ 0) (hc : (⟨x0, y0, z0⟩ : Vec3 ℝ).get C < c1)
    (haff : ∀ c, (⟨x0, y0, z0⟩ : Vec3 ℝ).get C ≤ c → c ≤ c1 → f.value ((⟨x0, y0, z0⟩ : Vec3 ℝ).set C c) = α + β * c)
    (h1 : (⟨x0, y0, z0⟩ : Vec3 ℝ).get C ≤ -α / β) (h2 : -α / β ≤ c1) :
    rfFind steps C x0 y0 z0 c1 (f.value ⟨x0, y0, z0⟩) (f.value ((⟨x0, y0, z0⟩ : Vec3 ℝ).set C c1)) f = some (-α / β) := by
  have hn : ∃ m, stepCount steps = m + 1 := ⟨stepCount steps - 1, by unfold stepCount; omega⟩
  obtain ⟨m, hm⟩ := hn
  set c0 := (⟨x0, y0, z0⟩ : Vec3 ℝ).get C with hc0
  have e0 : f.value ⟨x0, y0, z0⟩ = α + β * c0 := by
    rw [← haff c0 (le_refl _) hc.le, hc0, Vec3.set_get]
  have e1 := haff c1 hc.le (le_refl _)
  have e2 := haff _ h1 h2
  have hsub : c1 - c0 ≠ 0 := sub_ne_zero.2 hc.ne'
  have hd : α + β * c1 - (α + β * c0) = β * (c1 - c0) := by ring
  have hmid : (c0 * (α + β * c1) - c1 * (α + β * c0)) / (α + β * c1 - (α + β * c0)) = -α / β := by
    rw [hd, div_eq_div_iff (mul_ne_zero hβ hsub) hβ]; ring
  have hz : α + β * (-α / β) = 0 := by field_simp; ring
  unfold rfFind rfSamples
  simp only [hm, rfLoop, e0, e1, ← hc0]
  rw [if_neg (by rw [hd]; exact mul_ne_zero hβ hsub), hmid, e2, hz]
  simp

/-- C96 (zero finder): if the field changes linearly along the crossed edges, the regula falsi solver finds the faces of the box exactly. -/
theorem C96_finder (hf : BoxField f lo hi) (hstep : 0 < step) (hl : LinearOnEdges f origin step) (nan : ℝ) (steps : Int) :
    FindsFaces f (regulaFalsiFinder nan steps) origin step lo hi := by
  intro D p hc
  obtain ⟨α, β, haff⟩ := hl D p hc
  obtain ⟨c1, c2⟩ := (crosses_box hf D p).1 hc
  have hend := edgeEnd_world origin step D p
  have hin : ∀ c, f.value ((worldPos origin step p).set D c) ≤ 0 ↔ lo.get D ≤ c ∧ c ≤ hi.get D := by
    intro c
    rw [hf.inside]
    constructor
    · intro h
      have := h D
      rw [vec3_get_set, if_pos rfl] at this
      exact this
    · intro h a
      rw [vec3_get_set]
      by_cases ha : a = D
      · rw [if_pos ha, ha]; exact h
      · rw [if_neg ha, worldPos_get]; exact c1 a ha
  unfold Crosses at hc
  rw [hend] at hc
  have hP0 : (worldPos origin step p).set D ((worldPos origin step p).get D) = worldPos origin step p := by
    generalize worldPos origin step p = u
    cases D <;> rfl
  set P := worldPos origin step p with hP
  have hco : crossingCoord f (regulaFalsiFinder nan steps) (worldPos origin step) D p =
      (rfFind steps D P.x P.y P.z (P.get D + step) (f.value P) (f.value (P.set D (P.get D + step))) f).getD nan := by
    unfold crossingCoord
    rw [hend, ← hP]
    cases D <;> rfl
  have v0 := haff (P.get D) (le_refl _) (by linarith)
  have v1 := haff (P.get D + step) (by linarith) (le_refl _)
  have i0 := hin (P.get D)
  have i1 := hin (P.get D + step)
  rw [hP0] at v0 i0
  have e1 : (⟨P.x, P.y, P.z⟩ : Vec3 ℝ) = P := rfl
  have fin : ∀ z, β ≠ 0 → α + β * z = 0 → P.get D ≤ z → z ≤ P.get D + step →
      crossingCoord f (regulaFalsiFinder nan steps) (worldPos origin step) D p = z := by
    intro z hβ hz z1 z2
    have hzz : -α / β = z := by rw [div_eq_iff hβ]; linarith
    have := rf_linear steps D P.x P.y P.z (P.get D + step) f α β hβ (by rw [e1]; linarith) (by rw [e1]; exact haff)
      (by rw [e1, hzz]; exact z1) (by rw [hzz]; exact z2)
    rw [e1] at this
    rw [hco, this, Option.getD_some, hzz]
  have k1 : (f.value P ≤ 0 ∧ 0 < f.value (P.set D (P.get D + step))) ∨ (0 < f.value P ∧ f.value (P.set D (P.get D + step)) ≤ 0) := by
    by_cases a1 : f.value P ≤ 0
    · left
      exact ⟨a1, not_le.1 fun h => hc ⟨fun _ => h, fun _ => a1⟩⟩
    · right
      refine ⟨not_le.1 a1, ?_⟩
      by_contra a2
      exact hc ⟨fun h => absurd h a1, fun h => absurd h a2⟩
  rcases k1 with ⟨k1, k2⟩ | ⟨k1, k2⟩
  · rw [if_pos k1]
    rw [v0] at k1
    rw [v1] at k2
    have hβ : 0 < β := by
      by_contra hn
      nlinarith
    have hβ0 : β ≠ 0 := hβ.ne'
    obtain ⟨l1, l2⟩ := i0.1 (by rw [v0]; exact k1)
    have l3 : hi.get D < P.get D + step := by
      by_contra hn
      exact absurd (i1.2 ⟨by linarith, not_lt.1 hn⟩) (by rw [v1]; linarith)
    have vh := haff (hi.get D) l2 l3.le
    have nh := (hin (hi.get D)).2 ⟨by linarith, le_refl _⟩
    rw [vh] at nh
    refine fin _ hβ.ne' ?_ l2 l3.le
    -- the zero is inside
    have hz : α + β * (-α / β) = 0 := by rw [mul_div_cancel₀ _ hβ0]; ring
    have z1 : hi.get D ≤ -α / β := by rw [le_div_iff₀ hβ]; linarith
    have z2 : -α / β ≤ P.get D + step := by rw [div_le_iff₀ hβ]; linarith
    have := (hin (-α / β)).1 (by rw [haff _ (by linarith) z2, hz])
    have e : hi.get D = -α / β := le_antisymm z1 this.2
    rw [e]; exact hz
  · rw [if_neg (not_le.2 k1)]
    rw [v0] at k1
    rw [v1] at k2
    have hβ : β < 0 := by
      by_contra hn
      nlinarith
    have hβ0 : β ≠ 0 := hβ.ne
    obtain ⟨l1, l2⟩ := i1.1 (by rw [v1]; exact k2)
    have l3 : P.get D < lo.get D := by
      by_contra hn
      exact absurd (i0.2 ⟨not_lt.1 hn, by linarith⟩) (by rw [v0]; linarith)
    have vh := haff (lo.get D) l3.le l1
    have nh := (hin (lo.get D)).2 ⟨le_refl _, by linarith⟩
    rw [vh] at nh
    refine fin _ hβ.ne ?_ l3.le l1
    have hz : α + β * (-α / β) = 0 := by rw [mul_div_cancel₀ _ hβ0]; ring
    have z1 : -α / β ≤ lo.get D := by rw [div_le_iff_of_neg hβ]; linarith
    have z2 : P.get D ≤ -α / β := by rw [le_div_iff_of_neg hβ]; linarith
    have := (hin (-α / β)).1 (by rw [haff _ z2 (by linarith), hz])
    have e : lo.get D = -α / β := le_antisymm this.1 z1
    rw [e]; exact hz

/-! ### An example: the cube of side 3 -/

/-- The cube of side 3 around the origin; the gradient is the outward normal of the nearest face. -/
noncomputable def cubeField : ScalarField ℝ :=
  ⟨fun q => max (max |q.x| |q.y|) |q.z| - 3 / 2,
   fun q => if |q.y| < |q.x| ∧ |q.z| < |q.x| then ⟨if 0 ≤ q.x then 1 else -1, 0, 0⟩
     else if |q.x| < |q.y| ∧ |q.z| < |q.y| then ⟨0, if 0 ≤ q.y then 1 else -1, 0⟩ else ⟨0, 0, if 0 ≤ q.z then 1 else -1⟩,
   fun _ _ => .Stone⟩

theorem cube_box : BoxField cubeField ⟨-3 / 2, -3 / 2, -3 / 2⟩ ⟨3 / 2, 3 / 2, 3 / 2⟩ := by
  have hab : ∀ t : ℝ, (-3 / 2 < t ∧ t < 3 / 2) → |t| < 3 / 2 := fun t ht => abs_lt.2 ⟨by linarith [ht.1], ht.2⟩
  have hm : |(-3 / 2 : ℝ)| = 3 / 2 := by norm_num
  have hp : |(3 / 2 : ℝ)| = 3 / 2 := by norm_num
  refine ⟨fun q => ?_, fun D q h0 h1 => ⟨1, one_pos, ?_⟩, fun D q h0 h1 => ⟨1, one_pos, ?_⟩⟩
  · simp only [cubeField, sub_nonpos, max_le_iff, abs_le, forall_axis, Vec3.get]
    norm_num
    tauto
  · cases D <;> simp only [Vec3.get] at h0 <;> rw [forall_axis] at h1 <;> simp only [Vec3.get] at h1
    · have a1 := hab _ (h1.2.1 (by simp)); have a2 := hab _ (h1.2.2 (by simp))
      simp only [cubeField, h0, Vec3.set, hm]
      rw [if_pos ⟨a1, a2⟩, if_neg (by norm_num)]
    · have a1 := hab _ (h1.1 (by simp)); have a2 := hab _ (h1.2.2 (by simp))
      simp only [cubeField, h0, Vec3.set, hm]
      rw [if_neg (fun h => absurd h.1 (by linarith)), if_pos ⟨a1, a2⟩, if_neg (by norm_num)]
    · have a1 := hab _ (h1.1 (by simp)); have a2 := hab _ (h1.2.1 (by simp))
      simp only [cubeField, h0, Vec3.set, hm]
      rw [if_neg (fun h => absurd h.2 (by linarith)), if_neg (fun h => absurd h.2 (by linarith)), if_neg (by norm_num)]
  · cases D <;> simp only [Vec3.get] at h0 <;> rw [forall_axis] at h1 <;> simp only [Vec3.get] at h1
    · have a1 := hab _ (h1.2.1 (by simp)); have a2 := hab _ (h1.2.2 (by simp))
      simp only [cubeField, h0, Vec3.set, hp]
      rw [if_pos ⟨a1, a2⟩, if_pos (by norm_num)]
    · have a1 := hab _ (h1.1 (by simp)); have a2 := hab _ (h1.2.2 (by simp))
      simp only [cubeField, h0, Vec3.set, hp]
      rw [if_neg (fun h => absurd h.1 (by linarith)), if_pos ⟨a1, a2⟩, if_pos (by norm_num)]
    · have a1 := hab _ (h1.1 (by simp)); have a2 := hab _ (h1.2.1 (by simp))
      simp only [cubeField, h0, Vec3.set, hp]
      rw [if_neg (fun h => absurd h.2 (by linarith)), if_neg (fun h => absurd h.2 (by linarith)), if_pos (by norm_num)]

theorem cube_meets (a : Axis) (i : Int) : Meets ⟨0, 0, 0⟩ 1 ⟨-3 / 2, -3 / 2, -3 / 2⟩ ⟨3 / 2, 3 / 2, 3 / 2⟩ a i ↔ -1 ≤ i ∧ i ≤ 1 := by
  have e : Meets ⟨0, 0, 0⟩ 1 ⟨-3 / 2, -3 / 2, -3 / 2⟩ ⟨3 / 2, 3 / 2, 3 / 2⟩ a i ↔ (-3 / 2 : ℝ) ≤ i ∧ (i : ℝ) ≤ 3 / 2 := by
    unfold Meets planeCoord; cases a <;> simp [Vec3.get]
  rw [e]
  constructor
  · rintro ⟨h1, h2⟩
    constructor
    · by_contra hc
      have : (i : ℝ) ≤ -2 := by exact_mod_cast (by omega : i ≤ -2)
      linarith
    · by_contra hc
      have : (2 : ℝ) ≤ i := by exact_mod_cast (by omega : 2 ≤ i)
      linarith
  · rintro ⟨h1, h2⟩
    have h1' : (-1 : ℝ) ≤ i := by exact_mod_cast h1
    have h2' : (i : ℝ) ≤ 1 := by exact_mod_cast h2
    constructor <;> linarith

theorem cube_linear : LinearOnEdges cubeField ⟨0, 0, 0⟩ 1 := by
  intro D p hc
  obtain ⟨c1, c2⟩ := (crosses_box cube_box D p).1 hc
  rw [cube_meets, cube_meets] at c2
  have hsm : ∀ a, a ≠ D → |((p.get a : Int) : ℝ)| ≤ 1 := by
    intro a ha
    have := (cube_meets _ _).1 (c1 a ha)
    rw [abs_le]
    exact ⟨by exact_mod_cast this.1, by exact_mod_cast this.2⟩
  have hpd : p.get D = 1 ∨ p.get D = -2 := by omega
  have key : ∀ c : ℝ, 1 ≤ |c| → cubeField.value ((worldPos ⟨0, 0, 0⟩ 1 p).set D c) = |c| - 3 / 2 := by
    intro c hc
    cases D
    · have := hsm .Y (by simp); have := hsm .Z (by simp)
      simp only [IVec3.get] at *
      simp only [cubeField, worldPos, Vec3.set, mul_one, add_zero]
      rw [max_eq_left (by linarith : |(p.y : ℝ)| ≤ |c|), max_eq_left (by linarith)]
    · have := hsm .X (by simp); have := hsm .Z (by simp)
      simp only [IVec3.get] at *
      simp only [cubeField, worldPos, Vec3.set, mul_one, add_zero]
      rw [max_eq_right (by linarith : |(p.x : ℝ)| ≤ |c|), max_eq_left (by linarith)]
    · have := hsm .X (by simp); have := hsm .Y (by simp)
      simp only [IVec3.get] at *
      simp only [cubeField, worldPos, Vec3.set, mul_one, add_zero]
      rw [max_eq_right]
      exact max_le (by linarith) (by linarith)
  have hg : (worldPos ⟨0, 0, 0⟩ 1 p).get D = (p.get D : ℝ) := by rw [worldPos_get]; cases D <;> simp [Vec3.get]
  rcases hpd with hpd | hpd
  · refine ⟨-3 / 2, 1, fun c h1 h2 => ?_⟩
    rw [hg, hpd] at h1
    norm_num at h1
    rw [key c (by rw [abs_of_nonneg (by linarith)]; exact h1), abs_of_nonneg (by linarith)]
    ring
  · refine ⟨-3 / 2, -1, fun c h1 h2 => ?_⟩
    rw [hg, hpd] at h2
    norm_num at h2
    rw [key c (by rw [abs_of_nonpos (by linarith)]; linarith), abs_of_nonpos (by linarith)]
    ring

theorem cube_offLattice : OffLattice ⟨0, 0, 0⟩ 1 ⟨-3 / 2, -3 / 2, -3 / 2⟩ ⟨3 / 2, 3 / 2, 3 / 2⟩ := by
  intro a i
  have e1 : (i : ℝ) ≠ -3 / 2 := by
    intro h
    have h2 : (2 * i : ℝ) = -3 := by linarith
    have : 2 * i = -3 := by exact_mod_cast h2
    omega
  have e2 : (i : ℝ) ≠ 3 / 2 := by
    intro h
    have h2 : (2 * i : ℝ) = 3 := by linarith
    have : 2 * i = 3 := by exact_mod_cast h2
    omega
  cases a <;> simp only [Vec3.get, mul_one, add_zero] <;> exact ⟨e1, e2⟩

theorem exact_options (srt) : ExactOptions (exactEnv srt) Qef.new3 := by
  refine ⟨rfl, ?_, ?_, ?_, ?_, ?_⟩ <;> norm_num [exactEnv, Qef.new3]

/-- C96 on a concrete case: the mesh of the cube of side 3, made with the regula falsi solver from a grid of unit cells, is the surface of the cube. -/
theorem cube_demo {srt : List (DcEntry ℝ) → List (DcEntry ℝ)} (hs : IsSort srt) : ∃ (g g' : Grid ℝ) (q' : Qef ℝ 3) (r : PlacedMesh ℝ), g.Reachable ∧
    g.fill cubeField (regulaFalsiFinder 0 8) = some g' ∧ dualContouring (exactEnv srt) g' Qef.new3 = some (q', r) ∧
    ∀ q, OnMesh r q ↔ OnBox ⟨-3 / 2, -3 / 2, -3 / 2⟩ ⟨3 / 2, 3 / 2, 3 / 2⟩ q := by
  obtain ⟨g, e, hgp⟩ : ∃ g, Grid.mk' 4 (⟨0, 0, 0⟩ : Vec3 ℝ) 1 = .ok g ∧ g.globalPos = ⟨0, 0, 0⟩ ∧ g.step = 1 ∧ g.maxCoord = 2 := ⟨_, rfl, rfl, rfl, rfl⟩
  have hre : g.Reachable := .mk e
  have hstep : 0 < g.step := by rw [hgp.2.1]; norm_num
  have hprop : ProperField cubeField := by intro q _; simp [cubeField]
  obtain ⟨g', hfill, -⟩ := C06_fill_materials hre cubeField (regulaFalsiFinder 0 8)
  obtain ⟨-, q', r, hr, -⟩ := C18_vertices (env := exactEnv srt) (C07_filled hre hprop hfill) hs (exact_options srt).pinv_pos
  refine ⟨g, g', q', r, hre, hfill, hr, ?_⟩
  refine (C96_uniform hre hstep cube_box hprop hfill (by rw [hgp.1, hgp.2.1]; exact cube_offLattice)
    (by rw [hgp.1, hgp.2.1]; exact C96_finder cube_box one_pos cube_linear 0 8) hs (exact_options srt) hr).2 ?_ ?_
  · intro a; rw [hgp.2.1]; cases a <;> norm_num [Vec3.get]
  · intro a; rw [hgp.1, hgp.2.1, hgp.2.2]; cases a <;> norm_num [Vec3.get, IVec3.get]

/-- The surface of the cube is not empty: it has the corner of the cube. -/
example : OnBox ⟨-3 / 2, -3 / 2, -3 / 2⟩ ⟨3 / 2, 3 / 2, 3 / 2⟩ ⟨3 / 2, 3 / 2, 3 / 2⟩ :=
  ⟨fun a => by cases a <;> norm_num [Vec3.get], .X, Or.inr rfl⟩

end Isomesh
