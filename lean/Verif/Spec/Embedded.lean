import Verif.Spec.Volume
import Verif.Spec.Fill

/-! Specification for C90: a mesh that does not cut itself. -/

namespace Isomesh.Spec

variable {K : Type} [Field K] [LinearOrder K]

/-- `x` is in the convex hull of the points with numbers in `S`: for three points the closed triangle, for two the closed segment, for one
the point; for none there is no such `x`. -/
def Hull {ι : Type} (pos : ι → Vec3 K) (S : Finset ι) (x : Vec3 K) : Prop :=
  ∃ w : ι → K, (∀ i ∈ S, 0 ≤ w i) ∧ ∑ i ∈ S, w i = 1 ∧ ∀ a, ∑ i ∈ S, w i * (pos i).get a = x.get a

/-- The corners of a triangle. -/
def corners {ι : Type} [DecidableEq ι] (t : ι × ι × ι) : Finset ι := {t.1, t.2.1, t.2.2}

/-- The two triangles have at most a corner or a side in common, and every common point is a point of it: they touch nowhere else and do not
penetrate each other. -/
def MeetProperly {ι : Type} [DecidableEq ι] (pos : ι → Vec3 K) (t u : ι × ι × ι) : Prop :=
  (corners t ∩ corners u).card ≤ 2 ∧
  ∀ x, Hull pos (corners t) x → Hull pos (corners u) x → Hull pos (corners t ∩ corners u) x

/-- Position of a mesh vertex by its number. -/
def vertexPos (m : Mesh K) (i : Nat) : Vec3 K :=
  match m.vertices[i]? with
  | some v => v.position
  | none => ⟨0, 0, 0⟩

/-- Twice the area of the triangle, as a vector orthogonal to it. -/
def doubleArea (a b c : Vec3 K) : Vec3 K := (b.sub a).cross (c.sub a)

/-- The mesh is an embedded surface: its vertices are different points, no triangle is degenerate, and any two triangles meet properly. -/
structure EmbeddedMesh (m : Mesh K) : Prop where
  vertices : ∀ i j, i < m.vertices.length → j < m.vertices.length → i ≠ j → vertexPos m i ≠ vertexPos m j
  area : ∀ t ∈ triangles m.indices, doubleArea (vertexPos m t.1) (vertexPos m t.2.1) (vertexPos m t.2.2) ≠ ⟨0, 0, 0⟩
  meet : (triangles m.indices).Pairwise (MeetProperly (vertexPos m))

/-- The zero finder puts the surface strictly between the two ends of every crossed edge. -/
def InsideEdges (f : ScalarField K) (sv : ZeroFinder K) (origin : Vec3 K) (step : K) : Prop :=
  ∀ D p, Crosses f (worldPos origin step) D p →
    (worldPos origin step p).get D < crossingCoord f sv (worldPos origin step) D p ∧
    crossingCoord f sv (worldPos origin step) D p < (worldPos origin step (edgeEnd D p)).get D

/-- Position of a vertex of a placed mesh in the world, by its number. -/
def worldVertex (r : PlacedMesh K) (i : Nat) : Vec3 K := toWorld r (vertexPos r.mesh i)

end Isomesh.Spec
