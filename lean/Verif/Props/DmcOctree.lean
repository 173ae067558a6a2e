import Verif.Proofs.DmcDual
import Verif.Proofs.DcLeaf

/-! C48-C50: contouring of a dual marching cubes octree. -/

namespace Isomesh
open Spec

set_option linter.unusedSectionVars false
variable {K : Type} [Add K] [_root_.Sub K] [Mul K] [Div K] [Neg K] [Zero K] [One K] [OfNat K 2] [OfScientific K] [NatCast K] [IntCast K]
  [Fabs K] [Elem K] [LinearOrder K] [RoundedLaws K]

noncomputable section
open scoped Classical

variable {normalize : Vec3 K → Vec3 K} {junk : Nat → Option Material}

theorem contour_cells {o : DmcOctree K} {c : Cube} (hh : o.root.height ≤ c.k) (ha : DistinctAddresses o.root c)
    {visits : List (IVec3 × (Fin 8 → DmcCell K))}
    (hcalls : dcTrav.cellProcV o.root = visits.map (fun v i => Oct.leaf (v.2 i).2))
    (hmin : ∀ p q, (p, q) ∈ visits ↔ MinimalVertex o.root c p q) {r : PlacedMesh K}
    (hr : o.contour normalize junk = some r) :
    ∃ s E, CellsInv normalize junk (visits.map (·.2)) s E ∧ r = ⟨s.mesh, o.globalPos, o.globalScale⟩ := by
  unfold DmcOctree.contour at hr
  obtain ⟨s, hs, hr⟩ := Option.bind_eq_some_iff.1 hr
  simp only [Option.some.injEq] at hr
  rw [hcalls] at hs
  have hmap : visits.map (fun v i => (Oct.leaf (v.2 i).2 : DmcNode K)) =
      (visits.map (·.2)).map (fun (q : Fin 8 → DmcCell K) i => (Oct.leaf (q i).2 : DmcNode K)) := by rw [List.map_map]; rfl
  rw [hmap] at hs
  have hok : ∀ q ∈ [] ++ visits.map (·.2), ∀ e < 12, DualEdge o.root c (slotPair q e).1 (slotPair q e).2 := by
    intro q hq e he
    rw [List.nil_append] at hq
    obtain ⟨⟨p, q⟩, hpq, rfl⟩ := List.mem_map.1 hq
    exact slot_dualEdge ((hmin p q).1 hpq) he
  obtain ⟨E, hE⟩ := cells_fold (dualEdge_keys hh ha) (visits.map (·.2)) [] _ _ [] hok
    ⟨⟨rfl, List.nodup_nil, .nil⟩, by simp, rfl, by simp, by simp⟩ hs
  exact ⟨s, E, hE, hr.symm⟩

theorem dmc_topology {o : DmcOctree K} {c : Cube} (hh : o.root.height ≤ c.k) (ha : DistinctAddresses o.root c)
    {r : PlacedMesh K} (hr : o.contour normalize junk = some r) :
    (∃ E visits, DmcTopology o.root c r.mesh E visits ∧ ∀ (v : Nat) (A B : DmcCell K), E[v]? = some (A, B) →
      ∃ V m, r.mesh.vertices[v]? = some V ∧ V = pairVertex normalize (A, B) m) ∧
      r.globalPos = o.globalPos ∧ r.globalScale = o.globalScale := by
  obtain ⟨visits, hcalls, hnd, hmin⟩ := C51_dmc_vertices o.root c hh
  obtain ⟨s, E, hE, rfl⟩ := contour_cells hh ha hcalls hmin hr
  have hverts : ∀ (v : Nat) (A B : DmcCell K), E[v]? = some (A, B) → ∃ V, s.mesh.vertices[v]? = some V ∧
      ∃ m, dmcMaterial junk A.2 B.2 = some m ∧ V = pairVertex normalize (A, B) m := by
    intro v A B hv
    obtain ⟨hlt, he⟩ := List.getElem?_eq_some_iff.1 hv
    have hlt' : v < s.mesh.vertices.length := by rw [hE.inv.length]; exact hlt
    refine ⟨s.mesh.vertices[v], List.getElem?_eq_getElem hlt', ?_⟩
    have := List.Forall₂.get hE.inv.verts hlt' hlt
    simp only [List.get_eq_getElem, he] at this
    exact this
  have hedges : ∀ A B, (A, B) ∈ E ↔ DualEdge o.root c A B ∧ SignChange A.2 B.2 := by
    intro A B
    constructor
    · intro h
      obtain ⟨q, hq, e, he, hc, hx⟩ := hE.mem _ h
      obtain ⟨⟨p, q⟩, hpq, rfl⟩ := List.mem_map.1 hq
      have h1 := slot_dualEdge ((hmin p q).1 hpq) he
      have h2 := (crosses_iff q he).1 hc
      simp only at hx
      rw [← hx] at h1 h2
      exact ⟨h1, h2⟩
    · rintro ⟨h, hs⟩
      obtain ⟨p, q, hm, e, he, hx⟩ := dualEdge_slot h
      rw [hx]
      refine hE.found q (List.mem_map.2 ⟨(p, q), (hmin p q).2 hm, rfl⟩) e he ((crosses_iff q he).2 ?_)
      rw [← hx]
      exact hs
  refine ⟨⟨E, visits, ⟨nodup_of_keys hE.inv.nodup, hedges, hE.inv.length, ?_, hnd, hmin, ?_⟩, ?_⟩, rfl, rfl⟩
  · intro v A B m hv hm hne
    obtain ⟨V, hV, m', hm', rfl⟩ := hverts v A B hv
    refine ⟨_, hV, ?_⟩
    unfold dmcMaterial DmcLeaf.readMaterial at hm'
    simp only [hm] at hm'
    rw [if_neg hne] at hm'
    exact (Option.some.inj hm').symm
  · have := hE.idx
    rw [List.flatMap_map] at this
    exact this
  · intro v A B hv
    obtain ⟨V, hV, m, -, e⟩ := hverts v A B hv
    exact ⟨V, m, hV, e⟩

/-- C50 for any arithmetic: whatever the uninitialised memory contains, the mesh made by `contour` has one vertex for each pair of leaves
that are neighbours around an interior vertex of the octree and have dual vertices of different sign — shared by all the dual cells that
contain this pair — and for each interior vertex of the octree the triangles of the marching cubes table for the signs of the dual
vertices around it. -/
theorem C50_dmc_topology {o : DmcOctree K} {c : Cube} (hh : o.root.height ≤ c.k) (ha : DistinctAddresses o.root c)
    {r : PlacedMesh K} (hr : o.contour normalize junk = some r) :
    (∃ E visits, DmcTopology o.root c r.mesh E visits) ∧ r.globalPos = o.globalPos ∧ r.globalScale = o.globalScale := by
  obtain ⟨⟨E, visits, h, -⟩, h'⟩ := dmc_topology hh ha hr
  exact ⟨⟨E, visits, h⟩, h'⟩

/-- C50: whatever the uninitialised memory contains, the mesh made by `contour` is the surface on the dual grid: one
vertex for each pair of leaves that are neighbours around an interior vertex of the octree and have dual vertices of
different sign — shared by all the dual cells that contain this pair — and for each interior vertex of the octree the
triangles of the marching cubes table for the signs of the dual vertices around it. -/
theorem C50_dmc_mesh {normalize : Vec3 ℝ → Vec3 ℝ} {o : DmcOctree ℝ} {c : Cube} (hh : o.root.height ≤ c.k) (ha : DistinctAddresses o.root c)
    {r : PlacedMesh ℝ} (hr : o.contour normalize junk = some r) :
    (∃ E visits, DmcMesh normalize o.root c r.mesh E visits) ∧ r.globalPos = o.globalPos ∧ r.globalScale = o.globalScale := by
  obtain ⟨⟨E, visits, h, hv⟩, h'⟩ := dmc_topology hh ha hr
  refine ⟨⟨E, visits, h, ?_⟩, h'⟩
  intro v A B he
  obtain ⟨V, m, hV, rfl⟩ := hv v A B he
  obtain ⟨hz, hl⟩ := lerp_zero ((h.edges A B).1 (List.mem_of_getElem? he)).2
  simp only [← fabs_abs] at hz hl
  exact ⟨_, hV, _, hz, hl _ _, congrArg normalize (hl _ _)⟩

/-- C50: every index is the index of a vertex, and no triangle repeats a vertex. -/
theorem C50_indices_valid {o : DmcOctree K} {c : Cube} (hh : o.root.height ≤ c.k) (ha : DistinctAddresses o.root c)
    {r : PlacedMesh K} (hr : o.contour normalize junk = some r) :
    r.mesh.indices.length % 3 = 0 ∧
    ∀ t ∈ triangles r.mesh.indices, t.1 < r.mesh.vertices.length ∧ t.2.1 < r.mesh.vertices.length ∧
      t.2.2 < r.mesh.vertices.length ∧ t.1 ≠ t.2.1 ∧ t.2.1 ≠ t.2.2 ∧ t.1 ≠ t.2.2 := by
  obtain ⟨⟨E, visits, h⟩, -, -⟩ := C50_dmc_topology hh ha hr
  have hidx : r.mesh.indices = flatTri (visits.flatMap fun v => dualTriangles E v.2) := h.triangles
  constructor
  · rw [hidx]
    generalize visits.flatMap (fun v => dualTriangles E v.2) = L
    induction L with
    | nil => rfl
    | cons t L ih => simp only [flatTri, List.flatMap_cons, List.length_append, List.length_cons, List.length_nil] at *; omega
  · intro t ht
    rw [hidx, triangles_flatTri] at ht
    obtain ⟨⟨p, q⟩, hpq, ht⟩ := List.mem_flatMap.1 ht
    obtain ⟨ht, hne⟩ := List.mem_filter.1 ht
    rw [decide_eq_true_eq] at hne
    obtain ⟨u, hu, rfl⟩ := List.mem_map.1 ht
    obtain ⟨l1, l2, l3, -, -, -, c1, c2, c3⟩ := (C14_triangle_table.2 _ (dualMask_lt q)).2.2.2.2 u hu
    have key : ∀ e < 12, crosses (dualMask q) e = true → dualVertexId E q e < r.mesh.vertices.length := by
      intro e he hc
      have hm : slotPair q e ∈ E := (h.edges _ _).2 ⟨slot_dualEdge ((h.visits_iff p q).1 hpq) he, (crosses_iff q he).1 hc⟩
      rw [h.vertex_count]
      exact (List.getElem?_eq_some_iff.1 (dualVertexId_mem hm)).1
    exact ⟨key _ l1 c1, key _ l2 c2, key _ l3 c3, hne⟩

theorem visits_length {o : DmcOctree K} {c : Cube} {visits all : List (IVec3 × (Fin 8 → DmcCell K))}
    (hnd : (visits.map fun v => v.1).Nodup) (hmin : ∀ p q, (p, q) ∈ visits ↔ MinimalVertex o.root c p q)
    (hall : ∀ p q, MinimalVertex o.root c p q → (p, q) ∈ all) : visits.length ≤ all.length := by
  have h1 : visits.Nodup := List.Nodup.of_map _ hnd
  refine (h1.subperm ?_).length_le
  rintro ⟨p, q⟩ h
  exact hall p q ((hmin p q).1 h)

/-- C50: contouring completes, as far as materials have been written or reading uninitialised memory gives something, and
the number of interior vertices of the octree (all of them occur in the list `all`) times 12 is below `2 ^ 32`. -/
theorem C50_contour_completes {o : DmcOctree K} {c : Cube} (hh : o.root.height ≤ c.k) (ha : DistinctAddresses o.root c)
    {all : List (IVec3 × (Fin 8 → DmcCell K))} (hall : ∀ p q, MinimalVertex o.root c p q → (p, q) ∈ all)
    (hlen : 12 * all.length < 2 ^ 32)
    (hmat : ∀ A B, DualEdge o.root c A B → SignChange A.2 B.2 → MaterialsWritten A.2 B.2 ∨ ∀ i, junk i ≠ none) :
    ∃ r, o.contour normalize junk = some r := by
  obtain ⟨visits, hcalls, hnd, hmin⟩ := C51_dmc_vertices o.root c hh
  have hl := visits_length hnd hmin hall
  have hmap : visits.map (fun v i => (Oct.leaf (v.2 i).2 : DmcNode K)) =
      (visits.map (·.2)).map (fun (q : Fin 8 → DmcCell K) i => (Oct.leaf (q i).2 : DmcNode K)) := by rw [List.map_map]; rfl
  have hq : ∀ q ∈ visits.map (·.2), ∃ p, MinimalVertex o.root c p q := by
    intro q hq
    obtain ⟨⟨p, q⟩, hpq, rfl⟩ := List.mem_map.1 hq
    exact ⟨p, (hmin p q).1 hpq⟩
  obtain ⟨s, hs⟩ := cells_total (normalize := normalize) (junk := junk) (dualEdge_keys hh ha) (visits.map (·.2)) []
    ⟨Mesh.new, []⟩ [] (fun q hq' e he => by obtain ⟨p, hp⟩ := hq q hq'; exact slot_dualEdge hp he)
    ⟨⟨rfl, List.nodup_nil, .nil⟩, by simp, rfl, by simp, by simp⟩
    (by
      intro q hq' e he hc
      obtain ⟨p, hp⟩ := hq q hq'
      rcases hmat _ _ (slot_dualEdge hp he) ((crosses_iff q he).1 hc) with ⟨h1, h2⟩ | hj
      · unfold dmcMaterial DmcLeaf.readMaterial
        obtain ⟨m, hm⟩ := Option.ne_none_iff_exists'.1 h1
        simp only [hm]
        split
        · rename_i he'
          subst he'
          obtain ⟨m', hm'⟩ := Option.ne_none_iff_exists'.1 (h2 hm)
          simp [hm']
        · simp
      · have hr : ∀ l : DmcLeaf K, l.readMaterial junk ≠ none := by
          intro l
          unfold DmcLeaf.readMaterial
          cases l.material with
          | none => exact hj _
          | some m => simp
        unfold dmcMaterial
        obtain ⟨m, hm⟩ := Option.ne_none_iff_exists'.1 (hr (slotPair q e).1.2)
        rw [hm]
        dsimp only
        split
        · exact hr _
        · simp)
    (by simpa using by omega)
  unfold DmcOctree.contour
  rw [hcalls, hmap, hs]
  exact ⟨_, rfl⟩

/-! ### C49 -/

/-- C49: every vertex of the mesh belongs to a dual edge with a sign change; it is the zero of the linear interpolant of
the values at the two dual vertices, this zero is unique, and it lies strictly between the dual vertices unless a value
is zero. -/
theorem C49_linear_zero {normalize : Vec3 ℝ → Vec3 ℝ} {o : DmcOctree ℝ} {c : Cube} (hh : o.root.height ≤ c.k) (ha : DistinctAddresses o.root c)
    {r : PlacedMesh ℝ} (hr : o.contour normalize junk = some r) (V : MeshVertex ℝ) (hV : V ∈ r.mesh.vertices) :
    ∃ A B, DualEdge o.root c A B ∧ SignChange A.2 B.2 ∧
      ∃ s, (∀ s', ZeroParam A.2 B.2 s' ↔ s' = s) ∧ V.position = between s A.2.vertex B.2.vertex ∧
        V.normal = normalize (between s A.2.normal B.2.normal) ∧ (A.2.w ≠ 0 → B.2.w ≠ 0 → 0 < s ∧ s < 1) := by
  obtain ⟨⟨E, visits, h⟩, -, -⟩ := C50_dmc_mesh hh ha hr
  obtain ⟨v, hv, rfl⟩ := List.mem_iff_getElem.1 hV
  have hv' : v < E.length := by rw [← h.vertex_count]; exact hv
  obtain ⟨W, hW, s, hs, hp, hn⟩ := h.vertices v E[v].1 E[v].2 (List.getElem?_eq_getElem hv')
  rw [List.getElem?_eq_getElem hv, Option.some.injEq] at hW
  subst hW
  obtain ⟨hd, hsc⟩ := (h.edges E[v].1 E[v].2).1 (List.getElem_mem hv')
  refine ⟨_, _, hd, hsc, s, fun s' => ⟨fun hs' => zeroParam_unique hsc hs' hs, fun e => e ▸ hs⟩, hp, hn, ?_⟩
  intro hA hB
  obtain ⟨⟨h0, h1⟩, h2⟩ := hs
  refine ⟨lt_of_le_of_ne h0 ?_, lt_of_le_of_ne h1 ?_⟩
  · rintro rfl
    apply hA
    linarith
  · rintro rfl
    apply hB
    linarith

/-! ### C48 -/

/-- C48: reading uninitialised memory is avoided exactly if, for every dual edge with a sign change, the material of its
lower leaf has been written and, where this is `Empty`, that of the upper leaf. -/
theorem C48_strict_iff {o : DmcOctree K} {c : Cube} (hh : o.root.height ≤ c.k) (ha : DistinctAddresses o.root c)
    {all : List (IVec3 × (Fin 8 → DmcCell K))} (hall : ∀ p q, MinimalVertex o.root c p q → (p, q) ∈ all)
    (hlen : 12 * all.length < 2 ^ 32) :
    (∃ r, o.contour normalize (fun _ => none) = some r) ↔
      ∀ A B, DualEdge o.root c A B → SignChange A.2 B.2 → MaterialsWritten A.2 B.2 := by
  constructor
  · rintro ⟨r, hr⟩ A B hd hs
    obtain ⟨visits, hcalls, hnd, hmin⟩ := C51_dmc_vertices o.root c hh
    obtain ⟨s, E, hE, rfl⟩ := contour_cells hh ha hcalls hmin hr
    obtain ⟨p, q, hm, e, he, hx⟩ := dualEdge_slot hd
    have hmem : (A, B) ∈ E := by
      rw [hx]
      refine hE.found q (List.mem_map.2 ⟨(p, q), (hmin p q).2 hm, rfl⟩) e he ((crosses_iff q he).2 ?_)
      rw [← hx]
      exact hs
    have : ∃ V ∈ s.mesh.vertices, ∃ m, dmcMaterial (fun _ => none) A.2 B.2 = some m ∧ V = pairVertex normalize (A, B) m := by
      obtain ⟨i, hi, he⟩ := List.mem_iff_getElem.1 hmem
      have hi' : i < s.mesh.vertices.length := by rw [hE.inv.length]; exact hi
      have := List.Forall₂.get hE.inv.verts hi' hi
      simp only [List.get_eq_getElem, he] at this
      exact ⟨_, List.getElem_mem hi', this⟩
    obtain ⟨V, -, m, hm, -⟩ := this
    unfold dmcMaterial DmcLeaf.readMaterial at hm
    cases hA : A.2.material with
    | none => rw [hA] at hm; cases hm
    | some mA =>
      refine ⟨by simp [hA], ?_⟩
      intro hE'
      rw [hA, Option.some.injEq] at hE'
      subst hE'
      rw [hA] at hm
      simp only [if_true] at hm
      cases hB : B.2.material with
      | none => rw [hB] at hm; cases hm
      | some mB => simp
  · intro h
    exact C50_contour_completes hh ha hall hlen fun A B hd hs => Or.inl (h A B hd hs)

theorem exists_min_leaf {α : Type} (f : α → Int) (P : α → Prop) (l : List α) (h : ∃ x ∈ l, P x) :
    ∃ x ∈ l, P x ∧ ∀ y ∈ l, P y → f x ≤ f y := by
  induction l with
  | nil => obtain ⟨x, hx, -⟩ := h; cases hx
  | cons a l ih =>
    by_cases hl : ∃ x ∈ l, P x
    · obtain ⟨x, hx, hP, hm⟩ := ih hl
      by_cases ha : P a ∧ f a < f x
      · refine ⟨a, by simp, ha.1, ?_⟩
        intro y hy hPy
        rcases List.mem_cons.1 hy with rfl | hy
        · exact le_rfl
        · exact (ha.2.le).trans (hm y hy hPy)
      · refine ⟨x, by simp [hx], hP, ?_⟩
        intro y hy hPy
        rcases List.mem_cons.1 hy with rfl | hy
        · by_contra hlt
          exact ha ⟨hPy, by omega⟩
        · exact hm y hy hPy
    · obtain ⟨x, hx, hP⟩ := h
      rcases List.mem_cons.1 hx with rfl | hx
      · refine ⟨x, by simp, hP, ?_⟩
        intro y hy hPy
        rcases List.mem_cons.1 hy with rfl | hy
        · exact le_rfl
        · exact absurd ⟨y, hy, hPy⟩ hl
      · exact absurd ⟨x, hx, hP⟩ hl

/-- A leaf that does not touch the boundary: its lower corner is an interior vertex. -/
theorem lower_corner_vertex {t : DmcNode K} {c : Cube} (hh : t.height ≤ c.k) {B : DmcCell K} (hB : B ∈ (locate t c).leaves)
    (hin : ∀ a : Axis, c.lo.get a < B.1.lo.get a) :
    ∃ q, MinimalVertex t c B.1.lo q ∧ q 7 = B := by
  have hp := placed_locate t c hh
  have hsub := cubeSub_iff.1 (leaf_sub hp B hB)
  have hside := side_pos B.1
  have : ∀ i : Fin 8, ∃ l ∈ (locate t c).leaves, l.1.Has (vertCorner B.1.lo 1 i) := by
    intro i
    refine leaf_exists hp _ ?_
    rw [cubeHas_iff]
    intro a
    rw [vertCorner_get]
    have := hsub a
    have := hin a
    rcases octOff_01 i a with e | e <;> rw [e] <;> omega
  choose q hq1 hq2 using this
  have h7 : B.1.Has (vertCorner B.1.lo 1 7) := by
    rw [cubeHas_iff]
    intro a
    rw [vertCorner_get]
    have e7 : (octOff 7).get a = 1 := by cases a <;> rfl
    rw [e7]
    omega
  have hqB : q 7 = B := leaf_unique hp _ (hq1 7) _ hB _ (hq2 7) h7
  refine ⟨q, ⟨hq1, hq2, 7, ?_⟩, hqB⟩
  rw [hqB]
  apply ivec_ext
  intro a
  rw [vertCorner_get]
  have e7 : (octOff 7).get a = 1 := by cases a <;> rfl
  rw [e7]
  ring

/-- C48, the negation of the property: a tree whose leaves have a material only where the dual vertex is inside (this is
what `build` makes, see `C53`), in which the leaves at the boundary of the root cube are outside and some leaf is inside
— a surface inside the root cube — makes `contour` read a material that has never been written. -/
theorem C48_reads_uninitialised {o : DmcOctree K} {c : Cube} (hh : o.root.height ≤ c.k) (ha : DistinctAddresses o.root c)
    (hmat : ∀ A ∈ (locate o.root c).leaves, A.2.material ≠ none → A.2.w ≤ 0)
    (hbd : ∀ A ∈ (locate o.root c).leaves, A.1.TouchesBoundary c → 0 < A.2.w)
    (hin : ∃ A ∈ (locate o.root c).leaves, A.2.w ≤ 0) :
    o.contour normalize (fun _ => none) = none := by
  cases hr : o.contour normalize (fun _ => none) with
  | none => rfl
  | some r =>
    exfalso
    obtain ⟨visits, hcalls, hnd, hmin⟩ := C51_dmc_vertices o.root c hh
    obtain ⟨B, hB, hBw, hBm⟩ := exists_min_leaf (fun A : (DmcCell K) => A.1.lo.x) (fun A => A.2.w ≤ 0) _ hin
    have hp := placed_locate o.root c hh
    have hlow : ∀ a : Axis, c.lo.get a < B.1.lo.get a := by
      intro a
      have hs := cubeSub_iff.1 (leaf_sub hp B hB) a
      by_contra hlt
      have : 0 < B.2.w := hbd B hB ⟨a, Or.inl (by omega)⟩
      exact absurd hBw (not_le.2 this)
    obtain ⟨q, hq, hq7⟩ := lower_corner_vertex hh hB hlow
    have hA5 : 0 < (q 5).2.w := by
      by_contra hw
      have h1 := hBm _ (hq.leaf 5) (not_lt.1 hw)
      have h2 := cubeHas_iff.1 (hq.contains 5) .X
      rw [vertCorner_get] at h2
      have e5 : (octOff 5).get .X = 0 := rfl
      rw [e5] at h2
      have h1' : B.1.lo.get .X ≤ (q 5).1.lo.get .X := h1
      omega
    have hd : DualEdge o.root c (q 5) B := ⟨_, q, .X, 5, 7, hq, by rw [nextOctant_iff]; decide, rfl, hq7.symm⟩
    obtain ⟨s, E, hE, rfl⟩ := contour_cells hh ha hcalls hmin hr
    obtain ⟨p, q', hm, e, he, hx⟩ := dualEdge_slot hd
    have hmem : (q 5, B) ∈ E := by
      rw [hx]
      refine hE.found q' (List.mem_map.2 ⟨(p, q'), (hmin p q').2 hm, rfl⟩) e he ((crosses_iff q' he).2 ?_)
      rw [← hx]
      exact Or.inr ⟨hA5, hBw⟩
    obtain ⟨i, hi, he⟩ := List.mem_iff_getElem.1 hmem
    have hi' : i < s.mesh.vertices.length := by rw [hE.inv.length]; exact hi
    have := List.Forall₂.get hE.inv.verts hi' hi
    simp only [List.get_eq_getElem, he] at this
    obtain ⟨m, hm, -⟩ := this
    have hnone : (q 5).2.material = none := by
      by_contra hne
      have := hmat _ (hq.leaf 5) hne
      exact absurd this (not_le.2 hA5)
    unfold dmcMaterial DmcLeaf.readMaterial at hm
    simp only [hnone] at hm
    cases hm

end
end Isomesh
