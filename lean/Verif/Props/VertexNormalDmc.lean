import Verif.Props.VertexNormal
import Verif.Props.FlatDmcDemo

/-! C105 for dual marching cubes: normals of vertices stay within the directions of the gradients. -/

namespace Isomesh
open Spec

theorem length_add (a b : Vec3 ℝ) : (a.add b).length ≤ a.length + b.length := by
  have ha := length_sq a
  have hb := length_sq b
  have hs := length_sq (a.add b)
  simp only [Vec3.add] at hs ⊢
  have h0 := length_nonneg a
  have h1 := length_nonneg b
  have hc : a.x * b.x + a.y * b.y + a.z * b.z ≤ a.length * b.length := by
    refine abs_le_of_sq_le_sq' ?_ (mul_nonneg h0 h1) |>.2
    rw [mul_pow, ha, hb]
    nlinarith [sq_nonneg (a.x * b.y - a.y * b.x), sq_nonneg (a.x * b.z - a.z * b.x), sq_nonneg (a.y * b.z - a.z * b.y)]
  refine abs_le_of_sq_le_sq' ?_ (by linarith) |>.2
  rw [hs]
  nlinarith

theorem length_pos {v : Vec3 ℝ} (h : v ≠ ⟨0, 0, 0⟩) : 0 < v.length := by
  rcases (length_nonneg v).lt_or_eq with h' | h'
  · exact h'
  · exfalso
    have hsq := length_sq v
    rw [← h'] at hsq
    exact h (Vec3.ext (by nlinarith [sq_nonneg v.x, sq_nonneg v.y, sq_nonneg v.z]) (by nlinarith [sq_nonneg v.x, sq_nonneg v.y, sq_nonneg v.z])
      (by nlinarith [sq_nonneg v.x, sq_nonneg v.y, sq_nonneg v.z]))

/-- A vector within a direction, normalised. -/
theorem cone_normalize {normalize : Vec3 ℝ → Vec3 ℝ} (ht : TrueNormalize normalize) {u v : Vec3 ℝ} {γ : ℝ} (h : InCone u γ v) :
    UnitWithin u γ (normalize v) := by
  obtain ⟨h0, h1⟩ := h
  have hpos := length_pos h0
  have hsq := length_sq v
  rw [ht v h0]
  constructor
  · simp only
    field_simp
    linarith
  · simp only
    have e : v.x / v.length * u.x + v.y / v.length * u.y + v.z / v.length * u.z = (v.x * u.x + v.y * u.y + v.z * u.z) / v.length := by ring
    rw [e, le_div_iff₀ hpos]
    exact h1

theorem cone_foldl {u : Vec3 ℝ} {γ : ℝ} (hγ : 0 < γ) : ∀ (ns : List (Vec3 ℝ)), (∀ n ∈ ns, InCone u γ n) → ∀ a : Vec3 ℝ,
    γ * a.length ≤ a.x * u.x + a.y * u.y + a.z * u.z → (a ≠ ⟨0, 0, 0⟩ ∨ ns ≠ []) → InCone u γ (ns.foldl Vec3.add a) := by
  intro ns
  induction ns with
  | nil => intro _ a h1 h2; exact ⟨by simpa using h2, h1⟩
  | cons n ns ih =>
    intro h a h1 _
    obtain ⟨n0, n1⟩ := h n List.mem_cons_self
    have hd : γ * (a.add n).length ≤ (a.add n).x * u.x + (a.add n).y * u.y + (a.add n).z * u.z := by
      have := mul_le_mul_of_nonneg_left (length_add a n) hγ.le
      simp only [Vec3.add] at *
      linarith
    refine ih (fun k hk => h k (List.mem_cons_of_mem _ hk)) _ hd (Or.inl ?_)
    intro h0
    have hp := mul_pos hγ (length_pos n0)
    have ha := mul_nonneg hγ.le (length_nonneg a)
    have hx := congrArg Vec3.x h0
    have hy := congrArg Vec3.y h0
    have hz := congrArg Vec3.z h0
    simp only [Vec3.add] at hx hy hz
    have : (a.x + n.x) * u.x + (a.y + n.y) * u.y + (a.z + n.z) * u.z = 0 := by rw [hx, hy, hz]; ring
    linarith

theorem cone_between {u a b : Vec3 ℝ} {γ s : ℝ} (hγ : 0 < γ) (h0 : 0 ≤ s) (h1 : s ≤ 1) (ha : UnitWithin u γ a) (hb : UnitWithin u γ b) :
    InCone u γ (between s a b) := by
  have hdot : γ ≤ (between s a b).x * u.x + (between s a b).y * u.y + (between s a b).z * u.z := by
    simp only [between]
    nlinarith [mul_le_mul_of_nonneg_left ha.2 (sub_nonneg.2 h1), mul_le_mul_of_nonneg_left hb.2 h0]
  have hlen : (between s a b).length ≤ 1 := by
    refine abs_le_of_sq_le_sq' ?_ one_pos.le |>.2
    rw [length_sq]
    simp only [between]
    have h2 := ha.1
    have h3 := hb.1
    nlinarith [mul_nonneg (mul_nonneg h0 (sub_nonneg.2 h1)) (add_nonneg (add_nonneg (sq_nonneg (a.x - b.x)) (sq_nonneg (a.y - b.y))) (sq_nonneg (a.z - b.z)))]
  refine ⟨fun h => ?_, ?_⟩
  · rw [h] at hdot
    simp only [zero_mul, add_zero] at hdot
    linarith
  · have := mul_le_mul_of_nonneg_left hlen hγ.le
    linarith

section
variable {R : Type}

/-- C105 (DMC octree).  Every vertex of the mesh is on a dual edge between two leaves; if all gradients in the cubes of both are not zero and within a
direction, the normal of the vertex is a unit vector within this direction. -/
theorem C105_dmc_octree {env : DmcEnv ℝ R} {o o' : DmcOctree ℝ} {f : ScalarField ℝ} {epsilon : ℝ} {flags : DmcFlags} {seed : Nat}
    (hdraw : flags.randomSampling = true → ∀ k r (x : Axis), 0 ≤ (env.draw k r).1.get x ∧ (env.draw k r).1.get x ≤ 2 ^ k)
    (haddr : ∀ lo k lo' k', env.addr lo k = env.addr lo' k' → lo = lo' ∧ k = k')
    (hk : o.level ≤ 27) {solver q' : Qef ℝ 4} (hp : 0 < solver.pinvTolerance) (hb : o.build env f solver epsilon flags seed = some (q', o'))
    {normalize : Vec3 ℝ → Vec3 ℝ} {junk : Nat → Option Material} {r : PlacedMesh ℝ} (hr : o'.contour normalize junk = some r)
    (t1 : TrueNormalize env.normalize) (t2 : TrueNormalize normalize) :
    ∀ V ∈ r.mesh.vertices, ∃ A B s, DualEdge o'.root (rootCube o.level) A B ∧ V.position = between s A.2.vertex B.2.vertex ∧ ∀ u γ, 0 < γ →
      (∀ C ∈ [A, B], ∀ p, C.1.ClosedR p → InCone u γ (f.grad (o.localToGlobal p))) → UnitWithin u γ V.normal := by
  obtain ⟨q'', o'', hb', e1, e2, e3, hh, -, htree⟩ := C53_dmc_build env o f solver epsilon flags seed hk hp
  rw [hb] at hb'; cases hb'
  have hrk : (rootCube o.level).k = o.level := by
    unfold rootCube
    split
    · rename_i h; rw [h]
    · rfl
  rw [← hrk] at hh
  have hleaf := dmcTree_leaf htree
  have haddr' := C53_addresses htree haddr
  have hsub : ∀ A ∈ (locate o'.root (rootCube o.level)).leaves, A.1.k ≤ o.level := by
    intro A hA
    have hpl := placed_locate o'.root (rootCube o.level) hh
    have hsd := leaf_sub hpl A hA
    have h1 : A.1.side ≤ (rootCube o.level).side := by
      have := hsd.1
      omega
    unfold Cube.side at h1
    have h2 : (2 : Nat) ^ A.1.k ≤ 2 ^ (rootCube o.level).k := by exact_mod_cast h1
    rw [← hrk]
    exact (Nat.pow_le_pow_iff_right (by norm_num)).1 h2
  have key : ∀ A ∈ (locate o'.root (rootCube o.level)).leaves, ∀ u γ, 0 < γ →
      (∀ p, A.1.ClosedR p → InCone u γ (f.grad (o.localToGlobal p))) → UnitWithin u γ A.2.normal := by
    intro A hA u γ hγ hc
    obtain ⟨offs, ok, h1, hl, -⟩ := hleaf A hA
    obtain ⟨k1, k2, k3⟩ := sample_offsets (le_trans (hsub A hA) hk) h1 (fun hr r x => hdraw hr _ r x)
    rw [hl.normal]
    refine cone_normalize t1 (cone_foldl hγ _ ?_ _ (by simp [Vec3.length, elem_sqrt]) (Or.inr ?_))
    · intro n hn
      obtain ⟨off, ho, rfl⟩ := List.mem_map.1 hn
      refine hc _ ?_
      have ex := k1 off ho .X
      have ey := k1 off ho .Y
      have ez := k1 off ho .Z
      simp only [Vec3.get] at ex ey ez
      simp only [Cube.ClosedR, Cube.side, Vec3.add, IVec3.toReal]
      push_cast
      refine ⟨⟨?_, ?_⟩, ⟨?_, ?_⟩, ⟨?_, ?_⟩⟩ <;> linarith [ex.1, ex.2, ey.1, ey.2, ez.1, ez.2]
    · have : offs ≠ [] := by rintro rfl; simp at k3
      simpa using this
  intro V hV
  obtain ⟨A, B, hd, hsg, s, hz, hpos, hnrm, -⟩ := C49_linear_zero hh haddr' hr V hV
  obtain ⟨⟨h0, h1⟩, hzero⟩ := (hz s).2 rfl
  obtain ⟨hA, hB, -⟩ := dualEdge_upNext hd
  refine ⟨A, B, s, hd, hpos, fun u γ hγ hc => ?_⟩
  rw [hnrm]
  exact cone_normalize t2 (cone_between hγ h0 h1 (key A hA u γ hγ (hc A (by simp))) (key B hB u γ hγ (hc B (by simp))))

end

/-- The direction hypothesis for the tilted plane; the octrees over it are those of the example of `C70_dmc_octree`. -/
theorem tilt_cone (p : Vec3 ℝ) : InCone ⟨1, 1, 1⟩ 1 (tiltField.grad p) := by
  refine ⟨fun h => by have := congrArg Vec3.x h; norm_num [tiltField] at this, ?_⟩
  have : (tiltField.grad p).length ≤ 3 := by
    refine abs_le_of_sq_le_sq' ?_ (by norm_num) |>.2
    rw [length_sq]
    norm_num [tiltField]
  simp only [tiltField] at *
  linarith

/-- A concrete case of `C105_dmc_octree`: an octree of side 8 over the tilted plane, with any flags and error bound. -/
example (flags : DmcFlags) (epsilon : ℝ) : ∃ (o o' : DmcOctree ℝ) (q' : Qef ℝ 4) (r : PlacedMesh ℝ), o.level = 3 ∧
    o.build exactDmcEnv tiltField Qef.new4 epsilon flags 0 = some (q', o') ∧
    o'.contour exactDmcEnv.normalize (fun _ => some .Stone) = some r ∧ ∀ v ∈ r.mesh.vertices, UnitWithin ⟨1, 1, 1⟩ 1 v.normal := by
  obtain ⟨o, ho⟩ : ∃ o : DmcOctree ℝ, o.level = 3 := ⟨⟨3, ⟨0, 0, 0⟩, 1, .leaf ⟨0, ⟨0, 0, 0⟩, 0, ⟨0, 0, 0⟩, none⟩⟩, rfl⟩
  have hp : 0 < (Qef.new4 : Qef ℝ 4).pinvTolerance := by simp only [Qef.new4]; norm_num
  have haddr : ∀ lo k lo' k', exactDmcEnv.addr lo k = exactDmcEnv.addr lo' k' → lo = lo' ∧ k = k' := by
    rintro ⟨x, y, z⟩ k ⟨x', y', z'⟩ k' h
    have := Encodable.encode_injective h
    simp only [Prod.mk.injEq] at this
    obtain ⟨rfl, rfl, rfl, rfl⟩ := this
    exact ⟨rfl, rfl⟩
  obtain ⟨q', o', hb, e1, e2, e3, hh, -, htree⟩ := C53_dmc_build exactDmcEnv o tiltField Qef.new4 epsilon flags 0 (by omega) hp
  have hk : (rootCube o.level).k = o.level := by rw [ho]; rfl
  obtain ⟨r, hr⟩ := C50_completes_size (o := o') (by omega) (by rw [e1, hk]; exact hh) (by rw [e1]; exact C53_addresses htree haddr)
    exactDmcEnv.normalize (fun _ => .Stone)
  refine ⟨o, o', q', r, ho, hb, hr, fun V hV => ?_⟩
  obtain ⟨A, B, s, -, -, h⟩ := C105_dmc_octree (env := exactDmcEnv) (by intro _ k _ x; cases x <;> simp [exactDmcEnv, Vec3.get]) haddr (by omega) hp hb hr
    (fun _ _ => rfl) (fun _ _ => rfl) V hV
  exact h ⟨1, 1, 1⟩ 1 one_pos fun _ _ _ _ => tilt_cone _

end Isomesh
