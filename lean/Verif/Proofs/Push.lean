import Verif.Props.UniformDC
import Verif.Proofs.Octree
import Verif.Spec.DcOctree
import Mathlib.Algebra.BigOperators.Ring.Finset
import Mathlib.Algebra.Order.Interval.Finset.Basic
import Mathlib.Order.Interval.Finset.Defs
import Mathlib.Data.Int.Interval

/-! Closedness of dual surfaces whose vertices are labelled cells: sums over the lattice edges of a cube are sums over its
faces. -/

namespace Isomesh
open Spec

/-- The unit cells of a cube. -/
noncomputable def cubeCells (c : Cube) : Finset IVec3 :=
  (Finset.Ico c.lo.x (c.lo.x + c.side) ×ˢ Finset.Ico c.lo.y (c.lo.y + c.side) ×ˢ Finset.Ico c.lo.z (c.lo.z + c.side)).image
    fun v => ⟨v.1, v.2.1, v.2.2⟩

theorem mem_cubeCells {c : Cube} {P : IVec3} : P ∈ cubeCells c ↔ c.Has P := by
  unfold cubeCells Cube.Has
  simp only [Finset.mem_image, Finset.mem_product, Finset.mem_Ico, Prod.exists]
  constructor
  · rintro ⟨x, y, z, h, rfl⟩; exact h
  · intro h; exact ⟨P.x, P.y, P.z, h, rfl⟩

/-- The unit edges inside a cube: all four cells around them belong to it. -/
noncomputable def cubeEdges (c : Cube) : Finset LEdge :=
  ((({.X, .Y, .Z} : Finset Axis) ×ˢ cubeCells c).image fun v => (⟨v.1, v.2⟩ : LEdge)).filter
    fun e => ∀ P ∈ cellsAroundEdge e.axis e.at_, P ∈ cubeCells c

theorem mem_cubeEdges {c : Cube} {e : LEdge} : e ∈ cubeEdges c ↔ ∀ P ∈ cellsAroundEdge e.axis e.at_, c.Has P := by
  unfold cubeEdges
  simp only [Finset.mem_filter, Finset.mem_image, Finset.mem_product, Prod.exists, mem_cubeCells]
  constructor
  · exact fun h => h.2
  · intro h
    refine ⟨⟨e.axis, e.at_, ⟨?_, ?_⟩, rfl⟩, h⟩
    · cases e.axis <;> simp
    · apply h
      obtain ⟨D, p⟩ := e
      cases D <;> simp [cellsAroundEdge, shift]

/-- The inner faces of a cube: between the cell and the next one along the axis. -/
noncomputable def cubeFaces (c : Cube) : Finset (IVec3 × Axis) :=
  (cubeCells c ×ˢ ({.X, .Y, .Z} : Finset Axis)).filter fun f => step1 f.1 f.2 ∈ cubeCells c

theorem mem_cubeFaces {c : Cube} {f : IVec3 × Axis} : f ∈ cubeFaces c ↔ c.Has f.1 ∧ c.Has (step1 f.1 f.2) := by
  unfold cubeFaces
  simp only [Finset.mem_filter, Finset.mem_product, mem_cubeCells]
  constructor
  · rintro ⟨⟨h1, -⟩, h2⟩; exact ⟨h1, h2⟩
  · rintro ⟨h1, h2⟩; exact ⟨⟨h1, by cases f.2 <;> simp⟩, h2⟩

/-- The four faces at an edge. -/
def facesAt (e : LEdge) : Finset (IVec3 × Axis) :=
  match e.axis with
  | .X => {(shift e.at_ 0 (-1) (-1), .Y), (shift e.at_ 0 0 (-1), .Z), (shift e.at_ 0 (-1) 0, .Y), (shift e.at_ 0 (-1) (-1), .Z)}
  | .Y => {(shift e.at_ (-1) 0 (-1), .Z), (shift e.at_ (-1) 0 0, .X), (shift e.at_ 0 0 (-1), .Z), (shift e.at_ (-1) 0 (-1), .X)}
  | .Z => {(shift e.at_ (-1) (-1) 0, .X), (shift e.at_ 0 (-1) 0, .Y), (shift e.at_ (-1) 0 0, .X), (shift e.at_ (-1) (-1) 0, .Y)}

theorem shift_inj {p : IVec3} {a b c a' b' c' : Int} : shift p a b c = shift p a' b' c' ↔ a = a' ∧ b = b' ∧ c = c' := by
  simp only [shift, IVec3.mk.injEq]; omega

theorem mem_facesAt {e : LEdge} {f : IVec3 × Axis} : f ∈ facesAt e ↔ e ∈ faceEdges (step1 f.1 f.2) f.2 := by
  obtain ⟨D, ⟨x, y, z⟩⟩ := e
  obtain ⟨⟨x', y', z'⟩, A⟩ := f
  cases D <;> cases A <;>
    simp [facesAt, faceEdges, step1, shift] <;> omega

/-- A side between the labels of two cells. -/
def sideNet {α : Type} [DecidableEq α] (x y a b : α) : Int := ind x y a b - ind x y b a

theorem sideNet_swap {α : Type} [DecidableEq α] (x y a b : α) : sideNet x y a b = - sideNet y x a b := by
  unfold sideNet; rw [ind_swap x y a b, ind_swap x y b a]; ring

/-- The cycle of labels around an edge, by faces. -/
theorem cycle_faces {α : Type} [DecidableEq α] (φ : IVec3 → α) (D : Axis) (p : IVec3) (a b : α) :
    cycleNet (φ (Spec.edgeCorner D p 1 0)) (φ (Spec.edgeCorner D p 1 1)) (φ (Spec.edgeCorner D p 1 2)) (φ (Spec.edgeCorner D p 1 3)) a b =
      ∑ f ∈ facesAt ⟨D, p⟩, cellNet D p f.1 (step1 f.1 f.2) * sideNet (φ f.1) (φ (step1 f.1 f.2)) a b := by
  have hc : ∀ c0 c1 c2 c3 : α, cycleNet c0 c1 c2 c3 a b = sideNet c0 c1 a b + sideNet c1 c2 a b + sideNet c2 c3 a b + sideNet c3 c0 a b := by
    intros; unfold cycleNet sideNet; ring
  rw [hc]
  obtain ⟨x, y, z⟩ := p
  cases D <;> simp only [facesAt] <;>
    rw [Finset.sum_insert (by simp [shift]), Finset.sum_insert (by simp [shift]), Finset.sum_insert (by simp [shift]), Finset.sum_singleton] <;>
    simp only [step1, shift, Spec.edgeCorner, edgeOff, cellNet, cellsAroundEdge, cycleNet, ind, Matrix.cons_val_zero, Matrix.cons_val_one, Matrix.cons_val] <;> norm_num
  all_goals
    have key : ∀ c0 c1 c2 c3 : α, sideNet c0 c1 a b + sideNet c1 c2 a b + sideNet c2 c3 a b + sideNet c3 c0 a b =
        sideNet c0 c1 a b + (sideNet c1 c2 a b + (-sideNet c3 c2 a b + -sideNet c0 c3 a b)) := by
      intro c0 c1 c2 c3
      rw [sideNet_swap c2 c3, sideNet_swap c3 c0]; ring
    exact key _ _ _ _

theorem edgeCorner_cells (D : Axis) (p : IVec3) : cellsAroundEdge D p =
    [Spec.edgeCorner D p 1 0, Spec.edgeCorner D p 1 1, Spec.edgeCorner D p 1 2, Spec.edgeCorner D p 1 3] := by
  cases D <;> simp [cellsAroundEdge, Spec.edgeCorner, edgeOff, shift]

/-- Edges of a face inside the cube. -/
noncomputable def faceIn (c : Cube) (f : IVec3 × Axis) : Finset LEdge :=
  (faceEdges (step1 f.1 f.2) f.2).toFinset.filter (· ∈ cubeEdges c)

theorem swap_faces (c : Cube) (e : LEdge) (f : IVec3 × Axis) :
    e ∈ cubeEdges c ∧ f ∈ facesAt e ↔ e ∈ faceIn c f ∧ f ∈ cubeFaces c := by
  unfold faceIn
  rw [mem_facesAt, Finset.mem_filter, List.mem_toFinset, mem_cubeFaces]
  constructor
  · rintro ⟨h1, h2⟩
    have h3 := mem_cubeEdges.1 h1
    obtain ⟨k1, k2⟩ := faceEdges_of_cells h2
    exact ⟨⟨h2, h1⟩, h3 _ (around_iff.2 k1), h3 _ (around_iff.2 k2)⟩
  · rintro ⟨⟨h1, h2⟩, -⟩; exact ⟨h2, h1⟩

/-- If the weighted sides cancel at every face, they cancel altogether. -/
theorem push_closed {α : Type} [DecidableEq α] (c : Cube) (δ : LEdge → Int) (φ : IVec3 → LEdge → α) (a b : α)
    (hface : ∀ f ∈ cubeFaces c,
      ∑ e ∈ faceIn c f, δ e * cellNet e.axis e.at_ f.1 (step1 f.1 f.2) * sideNet (φ f.1 e) (φ (step1 f.1 f.2) e) a b = 0) :
    ∑ e ∈ cubeEdges c, δ e * cycleNet (φ (Spec.edgeCorner e.axis e.at_ 1 0) e) (φ (Spec.edgeCorner e.axis e.at_ 1 1) e)
      (φ (Spec.edgeCorner e.axis e.at_ 1 2) e) (φ (Spec.edgeCorner e.axis e.at_ 1 3) e) a b = 0 := by
  have h1 : ∀ e ∈ cubeEdges c, δ e * cycleNet (φ (Spec.edgeCorner e.axis e.at_ 1 0) e) (φ (Spec.edgeCorner e.axis e.at_ 1 1) e)
      (φ (Spec.edgeCorner e.axis e.at_ 1 2) e) (φ (Spec.edgeCorner e.axis e.at_ 1 3) e) a b =
      ∑ f ∈ facesAt e, δ e * cellNet e.axis e.at_ f.1 (step1 f.1 f.2) * sideNet (φ f.1 e) (φ (step1 f.1 f.2) e) a b := by
    intro e _
    rw [cycle_faces (fun P => φ P e), Finset.mul_sum]
    apply Finset.sum_congr rfl
    intro f _
    ring
  rw [Finset.sum_congr rfl h1, Finset.sum_comm' (t' := cubeFaces c) (s' := faceIn c) (swap_faces c)]
  exact Finset.sum_eq_zero hface

/-- Difference of a vertex function along an edge. -/
def drop (σ : IVec3 → Int) (e : LEdge) : Int := σ e.at_ - σ (edgeEnd e.axis e.at_)

/-- Sum over a face when the edges outside the cube do not matter. -/
theorem face_sum {c : Cube} {f : IVec3 × Axis} (w : LEdge → Int)
    (h : ∀ e ∈ faceEdges (step1 f.1 f.2) f.2, e ∉ cubeEdges c → w e = 0) :
    ∑ e ∈ faceIn c f, w e = ((faceEdges (step1 f.1 f.2) f.2).map w).sum := by
  rw [← List.sum_toFinset w (faceEdges_nodup _ _), faceIn]
  apply Finset.sum_subset (Finset.filter_subset _ _)
  intro e he hn
  rw [Finset.mem_filter, not_and] at hn
  exact h e (List.mem_toFinset.1 he) (hn he)

/-- Labels of cells: sides cancel, except for pairs of labels that meet at an edge with ends of different values on the
boundary of the cube. -/
theorem push_cells {α : Type} [DecidableEq α] (c : Cube) (σ : IVec3 → Int) (φ : IVec3 → α) (a b : α)
    (hb : ∀ D p P Q, EdgeOfCell P D p → EdgeOfCell Q D p → c.Has P → c.Has Q → φ P = a → φ Q = b → σ p ≠ σ (edgeEnd D p) →
      ∀ R ∈ cellsAroundEdge D p, c.Has R) :
    ∑ e ∈ cubeEdges c, drop σ e * cycleNet (φ (Spec.edgeCorner e.axis e.at_ 1 0)) (φ (Spec.edgeCorner e.axis e.at_ 1 1))
      (φ (Spec.edgeCorner e.axis e.at_ 1 2)) (φ (Spec.edgeCorner e.axis e.at_ 1 3)) a b = 0 := by
  apply push_closed c (drop σ) (fun P _ => φ P) a b
  intro f hf
  obtain ⟨f1, f2⟩ := mem_cubeFaces.1 hf
  rw [face_sum]
  · have := face_telescope σ f.1 f.2
    rw [show ((faceEdges (step1 f.1 f.2) f.2).map fun e =>
        drop σ e * cellNet e.axis e.at_ f.1 (step1 f.1 f.2) * sideNet (φ f.1) (φ (step1 f.1 f.2)) a b) =
      ((faceEdges (step1 f.1 f.2) f.2).map fun e => (σ e.at_ - σ (edgeEnd e.axis e.at_)) * cellNet e.axis e.at_ f.1 (step1 f.1 f.2)).map
        (· * sideNet (φ f.1) (φ (step1 f.1 f.2)) a b) by rw [List.map_map]; rfl]
    rw [List.sum_map_mul_right, List.map_id', this, zero_mul]
  · intro e he hn
    obtain ⟨k1, k2⟩ := faceEdges_of_cells he
    by_cases hd : drop σ e = 0
    · rw [hd]; ring
    have hne : σ e.at_ ≠ σ (edgeEnd e.axis e.at_) := fun h => hd (by unfold drop; rw [h]; ring)
    have hz : sideNet (φ f.1) (φ (step1 f.1 f.2)) a b = 0 := by
      unfold sideNet ind
      rw [if_neg, if_neg, sub_zero]
      · rintro ⟨h1, h2⟩
        exact hn (mem_cubeEdges.2 (hb _ _ _ _ k2 k1 f2 f1 h2 h1 hne))
      · rintro ⟨h1, h2⟩
        exact hn (mem_cubeEdges.2 (hb _ _ _ _ k1 k2 f1 f2 h1 h2 hne))
    rw [hz, mul_zero]

end Isomesh
