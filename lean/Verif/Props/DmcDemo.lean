import Verif.Props.DmcClosed
import Verif.Props.DmcBuild

/-! C48: the geometry does not depend on uninitialised memory; and an example octree that meets the hypotheses of the
theorems on `DMC_Octree`. -/

namespace Isomesh
open Spec

noncomputable section
open scoped Classical

/-! ### Geometry and uninitialised materials -/

theorem foldlM_rel {α β : Type} {P : α → α → Prop} {f f' : α → β → Option α}
    (hf : ∀ s s' x r r', P s s' → f s x = some r → f' s' x = some r' → P r r') (l : List β) :
    ∀ s s' r r', P s s' → l.foldlM f s = some r → l.foldlM f' s' = some r' → P r r' := by
  induction l with
  | nil =>
    intro s s' r r' h h1 h2
    simp only [List.foldlM_nil, Option.pure_def, Option.some.injEq] at h1 h2
    rw [← h1, ← h2]
    exact h
  | cons x l ih =>
    intro s s' r r' h h1 h2
    rw [List.foldlM_cons] at h1 h2
    obtain ⟨t, e1, h1⟩ := Option.bind_eq_some_iff.1 h1
    obtain ⟨t', e2, h2⟩ := Option.bind_eq_some_iff.1 h2
    exact ih t t' r r' (hf s s' x t t' h e1 e2) h1 h2

/-- The meshes agree apart from the materials of the vertices. -/
def SameGeometry (m m' : Mesh ℝ) : Prop :=
  m.indices = m'.indices ∧ (m.vertices.map fun V => (V.position, V.normal)) = m'.vertices.map fun V => (V.position, V.normal)

theorem SameGeometry.length {m m' : Mesh ℝ} (h : SameGeometry m m') : m.vertices.length = m'.vertices.length := by
  have := congrArg List.length h.2
  simpa using this

theorem emit_geometry (vs : List (Option Nat)) : ∀ (n : Nat) (row : List Int), row.length ≤ n → ∀ (m m' r r' : Mesh ℝ),
    SameGeometry m m' → emitTriangles vs row m = some r → emitTriangles vs row m' = some r' → SameGeometry r r' := by
  intro n
  induction n with
  | zero =>
    intro row hn m m' r r' _ h1 _
    rw [List.length_eq_zero_iff.1 (by omega : row.length = 0)] at h1
    simp [emitTriangles] at h1
  | succ n ih =>
    intro row hn m m' r r' h h1 h2
    cases row with
    | nil => simp [emitTriangles] at h1
    | cons x rest =>
      unfold emitTriangles at h1 h2
      by_cases hx : x = -1
      · rw [if_pos hx, Option.some.injEq] at h1 h2
        rw [← h1, ← h2]
        exact h
      · rw [if_neg hx] at h1 h2
        rcases rest with _ | ⟨y, _ | ⟨z, rest⟩⟩
        · simp at h1
        · simp at h1
        · simp only [Option.bind_eq_bind] at h1 h2
          obtain ⟨v1, e1, h1⟩ := Option.bind_eq_some_iff.1 h1
          obtain ⟨v2, e2, h1⟩ := Option.bind_eq_some_iff.1 h1
          obtain ⟨v3, e3, h1⟩ := Option.bind_eq_some_iff.1 h1
          obtain ⟨w, e4, h1⟩ := Option.bind_eq_some_iff.1 h1
          rw [e1, e2, e3] at h2
          simp only [Option.bind_some] at h2
          obtain ⟨w', e4', h2⟩ := Option.bind_eq_some_iff.1 h2
          refine ih rest (by simp at hn; omega) w w' r r' ?_ h1 h2
          unfold Mesh.addTriangle at e4 e4'
          rw [← h.length] at e4'
          by_cases hv : v1 < m.vertices.length ∧ v2 < m.vertices.length ∧ v3 < m.vertices.length
          · rw [if_pos hv] at e4 e4'
            by_cases hd : v1 = v2 ∨ v2 = v3 ∨ v1 = v3
            · rw [if_pos hd, Option.some.injEq] at e4 e4'
              rw [← e4, ← e4']
              exact h
            · rw [if_neg hd, Option.some.injEq] at e4 e4'
              rw [← e4, ← e4']
              exact ⟨by rw [h.1], h.2⟩
          · rw [if_neg hv] at e4
            cases e4

theorem newVertex_geometry {normalize : Vec3 ℝ → Vec3 ℝ} {j j' : Nat → Option Material} {A B : DmcLeaf ℝ} {s s' r r' : DmcState ℝ}
    {v v' : Nat} (h : SameGeometry s.mesh s'.mesh ∧ s.map = s'.map) (h1 : dmcNewVertex normalize j A B s = some (r, v))
    (h2 : dmcNewVertex normalize j' A B s' = some (r', v')) : (SameGeometry r.mesh r'.mesh ∧ r.map = r'.map) ∧ v = v' := by
  unfold dmcNewVertex at h1 h2
  simp only [Option.bind_eq_bind] at h1 h2
  obtain ⟨m, -, h1⟩ := Option.bind_eq_some_iff.1 h1
  obtain ⟨m', -, h2⟩ := Option.bind_eq_some_iff.1 h2
  unfold Mesh.addVertex at h1 h2
  rw [← h.1.length] at h2
  split at h1
  · rename_i hle
    rw [if_pos hle] at h2
    simp only [Option.bind_some, Option.some.injEq, Prod.mk.injEq, List.length_append, List.length_cons, List.length_nil,
      ← h.1.length] at h1 h2
    obtain ⟨rfl, rfl⟩ := h1
    obtain ⟨rfl, rfl⟩ := h2
    refine ⟨⟨⟨h.1.1, ?_⟩, ?_⟩, rfl⟩
    · simp only [List.map_append, h.1.2, List.map_cons, List.map_nil]
    · simp only [h.2]
  · simp at h1

theorem step_geometry {normalize : Vec3 ℝ → Vec3 ℝ} {j j' : Nat → Option Material} {sub : Fin 8 → DmcLeaf ℝ} {w i : Nat}
    {s s' r r' : DmcState ℝ × List Nat} (h : (SameGeometry s.1.mesh s'.1.mesh ∧ s.1.map = s'.1.map) ∧ s.2 = s'.2)
    (h1 : dmcEdgeStep normalize j sub w s i = some r) (h2 : dmcEdgeStep normalize j' sub w s' i = some r') :
    (SameGeometry r.1.mesh r'.1.mesh ∧ r.1.map = r'.1.map) ∧ r.2 = r'.2 := by
  unfold dmcEdgeStep at h1 h2
  split at h1
  · rename_i hb
    rw [if_pos hb] at h2
    unfold dmcEdgeVertex at h1 h2
    dsimp only at h1 h2
    rw [← h.1.2] at h2
    cases hf : s.1.map.find? (fun e => decide (e.1 = dmcKey (sub (Fin.ofNat 8 ((kCellEdgeEndpoint.getD i []).getD 0 0)))
        (sub (Fin.ofNat 8 ((kCellEdgeEndpoint.getD i []).getD 1 0))))) with
    | some e =>
      rw [hf] at h1 h2
      simp only [Option.some.injEq] at h1 h2
      rw [← h1, ← h2]
      exact ⟨h.1, by rw [h.2]⟩
    | none =>
      rw [hf] at h1 h2
      dsimp only at h1 h2
      cases n1 : dmcNewVertex normalize j (sub (Fin.ofNat 8 ((kCellEdgeEndpoint.getD i []).getD 0 0)))
          (sub (Fin.ofNat 8 ((kCellEdgeEndpoint.getD i []).getD 1 0))) s.1 with
      | none => rw [n1] at h1; simp at h1
      | some x =>
        cases n2 : dmcNewVertex normalize j' (sub (Fin.ofNat 8 ((kCellEdgeEndpoint.getD i []).getD 0 0)))
            (sub (Fin.ofNat 8 ((kCellEdgeEndpoint.getD i []).getD 1 0))) s'.1 with
        | none => rw [n2] at h2; simp at h2
        | some x' =>
          rw [n1] at h1
          rw [n2] at h2
          simp only [Option.some.injEq] at h1 h2
          obtain ⟨g1, g2⟩ := newVertex_geometry (r := x.1) (v := x.2) (r' := x'.1) (v' := x'.2) h.1 n1 n2
          rw [← h1, ← h2]
          exact ⟨g1, by rw [h.2, g2]⟩
  · rename_i hb
    rw [if_neg hb] at h2
    rw [Option.some.injEq] at h1 h2
    rw [← h1, ← h2]
    exact ⟨h.1, by rw [h.2]⟩

theorem vert_geometry {normalize : Vec3 ℝ → Vec3 ℝ} {j j' : Nat → Option Material} {sub : Fin 8 → DmcLeaf ℝ}
    {s s' r r' : DmcState ℝ} (h : SameGeometry s.mesh s'.mesh ∧ s.map = s'.map)
    (h1 : dmcVertLeaves normalize j sub s = some r) (h2 : dmcVertLeaves normalize j' sub s' = some r') :
    SameGeometry r.mesh r'.mesh ∧ r.map = r'.map := by
  unfold dmcVertLeaves at h1 h2
  simp only [Option.bind_eq_bind] at h1 h2
  obtain ⟨w, e1, h1⟩ := Option.bind_eq_some_iff.1 h1
  rw [e1, Option.bind_some] at h2
  obtain ⟨x, e2, h1⟩ := Option.bind_eq_some_iff.1 h1
  obtain ⟨x', e2', h2⟩ := Option.bind_eq_some_iff.1 h2
  obtain ⟨row, e3, h1⟩ := Option.bind_eq_some_iff.1 h1
  rw [e3, Option.bind_some] at h2
  obtain ⟨m, e4, h1⟩ := Option.bind_eq_some_iff.1 h1
  obtain ⟨m', e4', h2⟩ := Option.bind_eq_some_iff.1 h2
  have hx := foldlM_rel (P := fun s s' : DmcState ℝ × List Nat => (SameGeometry s.1.mesh s'.1.mesh ∧ s.1.map = s'.1.map) ∧ s.2 = s'.2)
    (f := dmcEdgeStep normalize j sub w) (f' := dmcEdgeStep normalize j' sub w)
    (fun s s' i r r' h h1 h2 => step_geometry h h1 h2) (List.range 12) (s, []) (s', []) x x' ⟨h, rfl⟩ e2 e2'
  rw [← hx.2] at e4'
  have := emit_geometry _ _ row le_rfl _ _ _ _ hx.1.1 e4 e4'
  simp only [Option.some.injEq] at h1 h2
  rw [← h1, ← h2]
  exact ⟨this, hx.1.2⟩

/-- C48: whatever uninitialised memory contains, the positions, normals and triangles of the mesh are the same; only
materials of vertices can differ. -/
theorem C48_geometry_partial {o : DmcOctree ℝ} {normalize : Vec3 ℝ → Vec3 ℝ} {junk junk' : Nat → Option Material} {r r' : PlacedMesh ℝ}
    (h1 : o.contour normalize junk = some r) (h2 : o.contour normalize junk' = some r') : SameGeometry r.mesh r'.mesh := by
  unfold DmcOctree.contour at h1 h2
  simp only [Option.bind_eq_bind] at h1 h2
  obtain ⟨s, e1, h1⟩ := Option.bind_eq_some_iff.1 h1
  obtain ⟨s', e2, h2⟩ := Option.bind_eq_some_iff.1 h2
  simp only [Option.some.injEq] at h1 h2
  rw [← h1, ← h2]
  refine (foldlM_rel (P := fun s s' : (DmcState ℝ) => SameGeometry s.mesh s'.mesh ∧ s.map = s'.map) ?_ _ _ _ _ _ ⟨⟨rfl, rfl⟩, rfl⟩ e1 e2).1
  intro s s' call r r' h h1 h2
  unfold dmcCall at h1 h2
  simp only [Option.bind_eq_bind] at h1 h2
  obtain ⟨l0, f0, h1⟩ := Option.bind_eq_some_iff.1 h1
  obtain ⟨l1, f1, h1⟩ := Option.bind_eq_some_iff.1 h1
  obtain ⟨l2, f2, h1⟩ := Option.bind_eq_some_iff.1 h1
  obtain ⟨l3, f3, h1⟩ := Option.bind_eq_some_iff.1 h1
  obtain ⟨l4, f4, h1⟩ := Option.bind_eq_some_iff.1 h1
  obtain ⟨l5, f5, h1⟩ := Option.bind_eq_some_iff.1 h1
  obtain ⟨l6, f6, h1⟩ := Option.bind_eq_some_iff.1 h1
  obtain ⟨l7, f7, h1⟩ := Option.bind_eq_some_iff.1 h1
  rw [f0, f1, f2, f3, f4, f5, f6, f7] at h2
  simp only [Option.bind_some] at h2
  exact vert_geometry h h1 h2

/-! ### Example octree -/

/-- Leaf `j` of octant `i` of the example: inside if it is one of the eight around the centre. -/
def demoDmcLeaf (i j : Fin 8) : DmcLeaf ℝ :=
  ⟨8 * i.val + j.val, (cellPoint ⟨0, ⟨0, 0, 0⟩, 1, .leaf ⟨0, ⟨0, 0, 0⟩, 0, ⟨0, 0, 0⟩, none⟩⟩
      ((⟨⟨0, 0, 0⟩, 2⟩ : Cube).octant i |>.octant j) ⟨1 / 2, 1 / 2, 1 / 2⟩),
    if i.val + j.val = 7 then -1 else 1, ⟨0, 0, 1⟩, if i.val + j.val = 7 then some .Stone else none⟩

/-- A complete octree with 64 leaves. -/
def demoDmc : DmcOctree ℝ :=
  ⟨2, ⟨0, 0, 0⟩, 1, .inner () fun i => .inner () fun j => .leaf (demoDmcLeaf i j)⟩

theorem demoDmc_height : demoDmc.root.height ≤ (⟨⟨0, 0, 0⟩, 2⟩ : Cube).k := by
  simp only [demoDmc, Oct.height]
  simp

theorem demoDmc_leaves {A : DmcCell ℝ} : A ∈ (locate demoDmc.root ⟨⟨0, 0, 0⟩, 2⟩).leaves ↔
    ∃ i j, A = (((⟨⟨0, 0, 0⟩, 2⟩ : Cube).octant i).octant j, demoDmcLeaf i j) := by
  simp only [demoDmc, locate, Oct.leaves, List.mem_flatMap, List.mem_finRange, true_and, List.mem_singleton]

theorem demoDmc_addresses : DistinctAddresses demoDmc.root ⟨⟨0, 0, 0⟩, 2⟩ := by
  intro A hA B hB h
  obtain ⟨i, j, rfl⟩ := demoDmc_leaves.1 hA
  obtain ⟨i', j', rfl⟩ := demoDmc_leaves.1 hB
  simp only [demoDmcLeaf] at h
  have e1 : i = i' := by omega
  have e2 : j = j' := by omega
  rw [e1, e2]

theorem demoDmc_boundary (i j : Fin 8) : (((⟨⟨0, 0, 0⟩, 2⟩ : Cube).octant i).octant j).TouchesBoundary ⟨⟨0, 0, 0⟩, 2⟩ ↔
    i.val + j.val ≠ 7 := by
  have h : ∀ i j : Fin 8, (∃ x ∈ [Axis.X, .Y, .Z], (((⟨⟨0, 0, 0⟩, 2⟩ : Cube).octant i).octant j).lo.get x = 0 ∨
      (((⟨⟨0, 0, 0⟩, 2⟩ : Cube).octant i).octant j).lo.get x + 1 = 4) ↔ i.val + j.val ≠ 7 := by decide
  rw [← h i j]
  unfold Cube.TouchesBoundary
  have s1 : (((⟨⟨0, 0, 0⟩, 2⟩ : Cube).octant i).octant j).side = 1 := rfl
  have s2 : (⟨⟨0, 0, 0⟩, 2⟩ : Cube).side = 4 := rfl
  have z : ∀ x, (⟨⟨0, 0, 0⟩, 2⟩ : Cube).lo.get x = 0 := fun x => by cases x <;> rfl
  simp only [s1, s2, z, zero_add]
  constructor
  · rintro ⟨x, hx⟩; exact ⟨x, axis_mem x, hx⟩
  · rintro ⟨x, -, hx⟩; exact ⟨x, hx⟩

/-- In the example contouring reads uninitialised memory. -/
theorem demoDmc_uninitialised (normalize : Vec3 ℝ → Vec3 ℝ) : demoDmc.contour normalize (fun _ => none) = none := by
  refine C48_reads_uninitialised demoDmc_height demoDmc_addresses ?_ ?_ ?_
  · intro A hA h
    obtain ⟨i, j, rfl⟩ := demoDmc_leaves.1 hA
    by_cases hij : i.val + j.val = 7
    · simp [demoDmcLeaf, hij]
    · simp [demoDmcLeaf, hij] at h
  · intro A hA h
    obtain ⟨i, j, rfl⟩ := demoDmc_leaves.1 hA
    have := (demoDmc_boundary i j).1 h
    simp [demoDmcLeaf, this]
  · exact ⟨_, demoDmc_leaves.2 ⟨0, 7, rfl⟩, by simp [demoDmcLeaf]⟩

/-- Whatever uninitialised memory contains, the example gives a closed mesh with at least one vertex. -/
theorem demoDmc_mesh (normalize : Vec3 ℝ → Vec3 ℝ) (junk : Nat → Material) :
    ∃ r, demoDmc.contour normalize (fun i => some (junk i)) = some r ∧ r.mesh.vertices ≠ [] ∧
      ∀ a b, (sides (triangles r.mesh.indices)).count (a, b) = (sides (triangles r.mesh.indices)).count (b, a) := by
  let all : List (IVec3 × (Fin 8 → DmcCell ℝ)) := (innerPoints ⟨⟨0, 0, 0⟩, 2⟩).toList.map fun p =>
    (p, dualCell demoDmc.root ⟨⟨0, 0, 0⟩, 2⟩ p)
  have hall : ∀ p q, MinimalVertex demoDmc.root ⟨⟨0, 0, 0⟩, 2⟩ p q → (p, q) ∈ all := by
    intro p q h
    obtain ⟨h1, h2⟩ := minimal_inner demoDmc_height h
    exact List.mem_map.2 ⟨p, Finset.mem_toList.2 h1, by rw [h2]⟩
  have hlen : 12 * all.length < 2 ^ 32 := by
    have h1 : (innerPoints ⟨⟨0, 0, 0⟩, 2⟩).card ≤ (cubeCells ⟨⟨0, 0, 0⟩, 2⟩).card := Finset.card_filter_le _ _
    have h2 : (cubeCells ⟨⟨0, 0, 0⟩, 2⟩).card ≤ 64 := by
      unfold cubeCells
      refine Finset.card_image_le.trans ?_
      simp [Cube.side]
    have : all.length = (innerPoints ⟨⟨0, 0, 0⟩, 2⟩).card := by simp [all]
    omega
  obtain ⟨r, hr⟩ := C50_contour_completes (normalize := normalize) (junk := fun i => some (junk i)) demoDmc_height
    demoDmc_addresses hall hlen (fun _ _ _ _ => Or.inr fun _ => by simp)
  refine ⟨r, hr, ?_, ?_⟩
  · obtain ⟨⟨E, visits, h⟩, -⟩ := C50_dmc_mesh demoDmc_height demoDmc_addresses hr
    have hB : (((⟨⟨0, 0, 0⟩, 2⟩ : Cube).octant 0).octant 7, demoDmcLeaf 0 7) ∈
        (locate demoDmc.root ⟨⟨0, 0, 0⟩, 2⟩).leaves := demoDmc_leaves.2 ⟨0, 7, rfl⟩
    obtain ⟨q, hq, h7⟩ := lower_corner_vertex demoDmc_height hB (by intro a; cases a <;> decide)
    have h5 := hq.contains 5
    have q5 : q 5 = (((⟨⟨0, 0, 0⟩, 2⟩ : Cube).octant 0).octant 5, demoDmcLeaf 0 5) := by
      refine leaf_unique (placed_locate _ _ demoDmc_height) _ (hq.leaf 5) _ (demoDmc_leaves.2 ⟨0, 5, rfl⟩) _ h5 ?_
      decide
    have hd : DualEdge demoDmc.root ⟨⟨0, 0, 0⟩, 2⟩ (q 5) (q 7) :=
      ⟨_, q, .X, 5, 7, hq, by intro a; cases a <;> decide, rfl, rfl⟩
    have hs : SignChange (q 5).2 (q 7).2 := by
      right
      rw [q5, h7]
      constructor <;> simp [demoDmcLeaf]
    have := (h.edges _ _).2 ⟨hd, hs⟩
    intro h0
    have hc := h.vertex_count
    rw [h0] at hc
    rw [List.length_eq_zero_iff.1 hc.symm] at this
    simp at this
  · refine C62_closed_surface demoDmc_height demoDmc_addresses hr ?_
    intro A B x top hd hs ta tb
    obtain ⟨hA, hB, -⟩ := dualEdge_upNext hd
    obtain ⟨i, j, rfl⟩ := demoDmc_leaves.1 hA
    obtain ⟨i', j', rfl⟩ := demoDmc_leaves.1 hB
    have key : ∀ i j, (((⟨⟨0, 0, 0⟩, 2⟩ : Cube).octant i).octant j).TouchesSide ⟨⟨0, 0, 0⟩, 2⟩ x top → (demoDmcLeaf i j).w = 1 := by
      intro i j h
      have : i.val + j.val ≠ 7 := by
        rw [← demoDmc_boundary]
        refine ⟨x, ?_⟩
        unfold Cube.TouchesSide at h
        cases top
        · left; simpa using h
        · right; simpa using h
      simp [demoDmcLeaf, this]
    rcases hs with ⟨h1, -⟩ | ⟨-, h1⟩
    · rw [key i j ta] at h1; linarith
    · rw [key i' j' tb] at h1; linarith

end
end Isomesh
