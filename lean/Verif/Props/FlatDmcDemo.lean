import Verif.Props.FlatDmc
import Verif.Props.FlatDemo
import Verif.Props.DmcDemo

/-! A concrete case for C70 on DMC octrees, and completion of `contour` in terms of the size alone. -/

namespace Isomesh
open Spec

noncomputable section

/-- C50: for octrees of side up to 512, whatever uninitialised memory contains, `contour` completes. -/
theorem C50_completes_size {o : DmcOctree ℝ} (hl : o.level ≤ 9) (hh : o.root.height ≤ (rootCube o.level).k) (ha : DistinctAddresses o.root (rootCube o.level))
    (normalize : Vec3 ℝ → Vec3 ℝ) (junk : Nat → Material) : ∃ r, o.contour normalize (fun i => some (junk i)) = some r := by
  classical
  have hall : ∀ p q, MinimalVertex o.root (rootCube o.level) p q → (p, q) ∈ (innerPoints (rootCube o.level)).toList.map fun p =>
      (p, dualCell o.root (rootCube o.level) p) := by
    intro p q h
    obtain ⟨h1, h2⟩ := minimal_inner hh h
    exact List.mem_map.2 ⟨p, Finset.mem_toList.2 h1, by rw [h2]⟩
  refine C50_contour_completes hh ha hall ?_ (fun _ _ _ _ => Or.inr fun _ => by simp)
  have h1 : (innerPoints (rootCube o.level)).card ≤ (cubeCells (rootCube o.level)).card := Finset.card_filter_le _ _
  have h2 : (cubeCells (rootCube o.level)).card ≤ 8 ^ 9 :=
    (cubeCells_card o.level).trans (Nat.pow_le_pow_right (by norm_num) hl)
  rw [List.length_map, Finset.length_toList]
  norm_num at h2 ⊢
  omega

/-- An environment with exact arithmetic and no use of the generator. -/
def exactDmcEnv : DmcEnv ℝ Unit :=
  ⟨1 / 2 ^ 126, -2 ^ 100, 2 ^ 100, fun v => ⟨v.x / v.length, v.y / v.length, v.z / v.length⟩, fun _ => (), fun _ _ => (⟨0, 0, 0⟩, ()),
    fun lo k => Encodable.encode (lo.x, lo.y, lo.z, k)⟩

/-- The hypotheses of `C70_dmc_octree` are met by the tilted plane, with any flags and error bound. -/
example (flags : DmcFlags) (epsilon : ℝ) : ∃ (o o' : DmcOctree ℝ) (q' : Qef ℝ 4) (r : PlacedMesh ℝ), o.level = 3 ∧
    o.build exactDmcEnv tiltField Qef.new4 epsilon flags 0 = some (q', o') ∧
    o'.contour exactDmcEnv.normalize (fun _ => some .Stone) = some r ∧
    (∀ v ∈ r.mesh.vertices, tiltField.value (meshToWorld r v.position) ^ 2 ≤ max 0 epsilon ∧ v.normal = unitVec ⟨1, 1, 1⟩) := by
  obtain ⟨o, ho, ho1, ho2⟩ : ∃ o : DmcOctree ℝ, o.level = 3 ∧ o.globalPos = ⟨0, 0, 0⟩ ∧ o.globalScale = 1 :=
    ⟨⟨3, ⟨0, 0, 0⟩, 1, .leaf ⟨0, ⟨0, 0, 0⟩, 0, ⟨0, 0, 0⟩, none⟩⟩, rfl, rfl, rfl⟩
  have hp : 0 < (Qef.new4 : Qef ℝ 4).pinvTolerance := by simp only [Qef.new4]; norm_num
  have haddr : ∀ lo k lo' k', exactDmcEnv.addr lo k = exactDmcEnv.addr lo' k' → lo = lo' ∧ k = k' := by
    rintro ⟨x, y, z⟩ k ⟨x', y', z'⟩ k' h
    have := Encodable.encode_injective h
    simp only [Prod.mk.injEq] at this
    obtain ⟨rfl, rfl, rfl, rfl⟩ := this
    exact ⟨rfl, rfl⟩
  obtain ⟨q', o', hb, e1, e2, e3, hh, -, htree⟩ := C53_dmc_build exactDmcEnv o tiltField Qef.new4 epsilon flags 0 (by omega) hp
  have hk : (rootCube o.level).k = o.level := by rw [ho]; rfl
  obtain ⟨r, hr⟩ := C50_completes_size (o := o') (by omega) (by rw [e1, hk]; exact hh) (by rw [e1]; exact C53_addresses htree haddr)
    exactDmcEnv.normalize (fun _ => .Stone)
  have hrange : ∀ v, (rootCube o.level).ClosedR v → exactDmcEnv.lowest ≤ tiltField.value (o.localToGlobal v) / o.globalScale ∧
      tiltField.value (o.localToGlobal v) / o.globalScale ≤ exactDmcEnv.highest := by
    rintro ⟨x, y, z⟩ hv
    rw [ho] at hv
    simp only [Cube.ClosedR, rootCube] at hv
    norm_num at hv
    simp only [exactDmcEnv, DmcOctree.localToGlobal, ho1, ho2, tiltField]
    norm_num
    constructor <;> linarith
  have := C70_dmc_octree (env := exactDmcEnv) (o := o) tilt_plane (by rw [ho2]; norm_num) (by norm_num [exactDmcEnv]) (by norm_num [exactDmcEnv])
    (by intro x; right; cases x <;> norm_num [exactDmcEnv, Vec3.get]) hrange
    (by intro _ k _ x; cases x <;> simp [exactDmcEnv, Vec3.get]) haddr (by omega) hp hb hr
  exact ⟨o, o', q', r, ho, hb, hr, fun v hv => ⟨this.1 v hv, this.2.2 (fun _ _ => rfl) (fun _ _ => rfl) v hv⟩⟩

end

end Isomesh
