import Verif.Model.MarchingCubes
import Mathlib.Algebra.Order.Field.Basic

/-! What it means that a field is another field moved and scaled (used by C77). -/

namespace Isomesh.Spec

variable {K : Type} [Field K] [LinearOrder K] [IsStrictOrderedRing K]

/-- The point `q` scaled by `s` and then moved by `t`. -/
def moved (s : K) (t q : Vec3 K) : Vec3 K := ⟨s * q.x + t.x, s * q.y + t.y, s * q.z + t.z⟩

/-- `f'` describes the body of `f` scaled by `s` and moved by `t`: values are lengths and scale, gradients do not change,
materials are those of the original point. -/
structure Similar (s : K) (t : Vec3 K) (f f' : ScalarField K) : Prop where
  value : ∀ q, f'.value (moved s t q) = s * f.value q
  grad : ∀ q, f'.grad (moved s t q) = f.grad q
  material : ∀ q v, f'.material (moved s t q) (s * v) = f.material q v

/-- The field of the scaled and moved body. -/
def movedField (s : K) (t : Vec3 K) (f : ScalarField K) : ScalarField K where
  value q := s * f.value ⟨(q.x - t.x) / s, (q.y - t.y) / s, (q.z - t.z) / s⟩
  grad q := f.grad ⟨(q.x - t.x) / s, (q.y - t.y) / s, (q.z - t.z) / s⟩
  material q v := f.material ⟨(q.x - t.x) / s, (q.y - t.y) / s, (q.z - t.z) / s⟩ (v / s)

/-- Position in the world of the point `p` of a mesh. -/
def toWorld (m : PlacedMesh K) (p : Vec3 K) : Vec3 K :=
  ⟨p.x * m.globalScale + m.globalPos.x, p.y * m.globalScale + m.globalPos.y, p.z * m.globalScale + m.globalPos.z⟩

/-- `m'` is `m` scaled by `s` and moved by `t`: vertices (with normals and materials) and triangles are the same, and the
placement takes each point to the scaled and moved place. -/
structure SameMoved (s : K) (t : Vec3 K) (m m' : PlacedMesh K) : Prop where
  mesh : m'.mesh = m.mesh
  world : ∀ p, toWorld m' p = moved s t (toWorld m p)

end Isomesh.Spec
