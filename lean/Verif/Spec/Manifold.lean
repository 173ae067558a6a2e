import Verif.Spec.Filled
import Verif.Spec.Octree
import Mathlib.Logic.Relation
import Mathlib.Data.Real.Basic

/-! Surfaces without pinched vertices, for triangles given by three vertex numbers. -/

namespace Isomesh.Spec

/-- Vertex `v` is a corner of triangle `t`. -/
def HasCorner (t : Nat × Nat × Nat) (v : Nat) : Prop := v = t.1 ∨ v = t.2.1 ∨ v = t.2.2

/-- Two triangles share a side that ends in vertex `v`. -/
def ShareSideAt (v : Nat) (s t : Nat × Nat × Nat) : Prop :=
  HasCorner s v ∧ HasCorner t v ∧ ∃ w, w ≠ v ∧ HasCorner s w ∧ HasCorner t w

/-- The triangles around the vertex `v` form one fan: one can go from any of them to any other, crossing only sides that
end in the vertex. -/
def FanAt (ts : List (Nat × Nat × Nat)) (v : Nat) : Prop :=
  ∀ s ∈ ts, ∀ t ∈ ts, HasCorner s v → HasCorner t v →
    Relation.ReflTransGen (fun a b => a ∈ ts ∧ b ∈ ts ∧ ShareSideAt v a b) s t

/-- No vertex is a point where several sheets of the surface touch. -/
def OneFan (ts : List (Nat × Nat × Nat)) : Prop := ∀ v, FanAt ts v

/-- The corners of the cell `P` that are solid (`kind = true`) or empty (`kind = false`) are just two opposite ones. -/
def OppositeCorners {K : Type} (g : Grid K) (P : IVec3) (kind : Bool) : Prop :=
  ∃ i : Fin 8, ∀ j : Fin 8, solidAt g (octCorner P 1 j) = kind ↔ j = i ∨ (i : Nat) + j = 7

end Isomesh.Spec
