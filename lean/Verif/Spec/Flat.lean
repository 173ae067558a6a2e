import Verif.Spec.Accuracy
import Verif.Model.UniformDC
import Verif.Spec.Filled

/-! Specification of meshes of flat surfaces. -/

namespace Isomesh.Spec

open Isomesh

/-- The field whose surface is the plane `n · p + d = 0`, with the exact gradient. -/
structure PlaneField (f : ScalarField ℝ) (n : Vec3 ℝ) (d : ℝ) : Prop where
  value : ∀ p, f.value p = n.x * p.x + n.y * p.y + n.z * p.z + d
  grad : ∀ p, f.grad p = n
  nonzero : n ≠ ⟨0, 0, 0⟩

/-- Every vertex of the mesh and every point of every triangle is a zero of the field. -/
def ExactlyOn (f : ScalarField ℝ) (r : PlacedMesh ℝ) : Prop :=
  (∀ v ∈ r.mesh.vertices, f.value (meshToWorld r v.position) = 0) ∧
  ∀ t ∈ triangles r.mesh.indices, ∀ q, OnMeshTriangle r t q → f.value q = 0

/-- All of the solid is of one material. -/
structure OneMaterial (f : ScalarField ℝ) (m : Material) : Prop where
  solid : m ≠ .Empty
  same : ∀ p, f.value p ≤ 0 → f.material p (f.value p) = m

/-- Unit vector of a direction. -/
noncomputable def unitVec (n : Vec3 ℝ) : Vec3 ℝ := ⟨n.x / n.length, n.y / n.length, n.z / n.length⟩

/-- What is asked of the constants of the environment for the direction `n`: the normal stored for an edge with the gradient `n` has
exactly this direction (true if `eps` is 0, and in any case for vertical `n`), and its components are zero or not tiny. -/
structure GoodDirection (env : DcEnv ℝ) (n : Vec3 ℝ) : Prop where
  tiny_pos : 0 < env.tiny
  exact : ∃ s, 0 < s ∧ edgeNormal env.eps n = ⟨s * n.x, s * n.y, s * n.z⟩
  size : ∀ a : Axis, (edgeNormal env.eps n).get a = 0 ∨ env.tiny ≤ (edgeNormal env.eps n).get a ^ 2

/-- The function divides vectors by their length. -/
def TrueNormalize (normalize : Vec3 ℝ → Vec3 ℝ) : Prop :=
  ∀ v : Vec3 ℝ, v ≠ ⟨0, 0, 0⟩ → normalize v = ⟨v.x / v.length, v.y / v.length, v.z / v.length⟩

end Isomesh.Spec
