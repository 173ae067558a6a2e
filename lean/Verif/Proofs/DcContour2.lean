import Verif.Proofs.DcContour

/-! `DC_Octree::contour`: triangles. -/

namespace Isomesh
open Spec

set_option linter.unusedSectionVars false
variable {K : Type} [Add K] [_root_.Sub K] [Mul K] [Div K] [Neg K] [Zero K] [One K] [OfNat K 2] [OfScientific K] [NatCast K] [IntCast K]
  [Fabs K] [Elem K] [LinearOrder K] [RoundedLaws K]

theorem treeOK_bare {g : Grid K} {t : DcNode K} : ∀ {c : Cube} {depth : Nat},
    TreeOK g (t.map id DcLeaf.bare) c depth ↔ TreeOK g t c depth := by
  induction t with
  | leaf l =>
    intro c depth
    exact ⟨fun h => ⟨⟨h.1.corners, h.1.homog, h.1.dual⟩, h.2⟩, fun h => ⟨⟨h.1.corners, h.1.homog, h.1.dual⟩, h.2⟩⟩
  | inner d ch ih =>
    intro c depth
    simp only [Oct.map, TreeOK, id, ih]

/-! ### The deepest leaf -/

theorem deepest_fold {D : Axis} {n : Fin 4 → DcLeaf K} (is : List (Fin 4)) (s : Int × Material × Material) :
    let r := is.foldl (fun (s : Int × Material × Material) i => if ((n i).depth : Int) > s.1 then
      (((n i).depth : Int), (n i).corners (dcCornersTable D i).1, (n i).corners (dcCornersTable D i).2) else s) s
    (r = s ∧ ∀ i ∈ is, ((n i).depth : Int) ≤ s.1) ∨
    ∃ i ∈ is, r = (((n i).depth : Int), (n i).corners (dcCornersTable D i).1, (n i).corners (dcCornersTable D i).2) ∧
      s.1 ≤ (n i).depth ∧ ∀ i' ∈ is, (n i').depth ≤ (n i).depth := by
  induction is generalizing s with
  | nil => left; simp
  | cons i is ih =>
    rw [List.foldl_cons]
    by_cases h : ((n i).depth : Int) > s.1
    · rw [if_pos h]
      right
      rcases ih (((n i).depth : Int), (n i).corners (dcCornersTable D i).1, (n i).corners (dcCornersTable D i).2) with
        ⟨h1, h2⟩ | ⟨i', hi', h1, h2, h3⟩
      · refine ⟨i, List.mem_cons_self, h1, h.le, ?_⟩
        intro i' hi'
        rcases List.mem_cons.1 hi' with rfl | hi'
        · exact le_refl _
        · have := h2 i' hi'
          simp only at this
          omega
      · simp only at h2
        refine ⟨i', List.mem_cons_of_mem _ hi', h1, by omega, ?_⟩
        intro i'' hi''
        rcases List.mem_cons.1 hi'' with rfl | hi''
        · exact_mod_cast h2
        · exact h3 i'' hi''
    · rw [if_neg h]
      rcases ih s with ⟨h1, h2⟩ | ⟨i', hi', h1, h2, h3⟩
      · left
        refine ⟨h1, ?_⟩
        intro i' hi'
        rcases List.mem_cons.1 hi' with rfl | hi'
        · omega
        · exact h2 i' hi'
      · right
        refine ⟨i', List.mem_cons_of_mem _ hi', h1, h2, ?_⟩
        intro i'' hi''
        rcases List.mem_cons.1 hi'' with rfl | hi''
        · have : ((n i'').depth : Int) ≤ (n i').depth := by omega
          exact_mod_cast this
        · exact h3 i'' hi''

theorem dcMinimal_spec (D : Axis) (n : Fin 4 → DcLeaf K) :
    ∃ i, (dcMinimal D n).2 = ((n i).corners (dcCornersTable D i).1, (n i).corners (dcCornersTable D i).2) ∧
      ∀ i', (n i').depth ≤ (n i).depth := by
  rcases deepest_fold (D := D) (n := n) (List.finRange 4) (-1, .Empty, .Empty) with ⟨-, h⟩ | ⟨i, -, h1, -, h2⟩
  · have := h 0 (List.mem_finRange 0)
    simp only at this
    omega
  · exact ⟨i, by rw [dcMinimal, h1], fun i' => h2 i' (List.mem_finRange i')⟩

/-! ### The ends of a minimal edge -/

theorem segEnd_get (D : Axis) (p : IVec3) (s : Int) (a : Axis) : (segEnd D p s).get a = p.get a + if a = D then s else 0 := by
  cases D <;> cases a <;> simp [segEnd, shift, IVec3.get]

theorem edgeOff_low : ∀ (D : Axis) (i : Fin 4) (a : Axis),
    (edgeOff D i).get a + (octOff (dcCornersTable D i).1).get a = 0 := by
  intro D i a; cases D <;> cases a <;> revert i <;> decide

theorem edgeOff_high : ∀ (D : Axis) (i : Fin 4) (a : Axis),
    (edgeOff D i).get a + (octOff (dcCornersTable D i).2).get a = if a = D then 1 else 0 := by
  intro D i a; cases D <;> cases a <;> revert i <;> decide

theorem corners_of_edge (D : Axis) (p : IVec3) (s : Int) (i : Fin 4) :
    octCorner (Spec.edgeCorner D p s i) s (dcCornersTable D i).1 = p ∧
    octCorner (Spec.edgeCorner D p s i) s (dcCornersTable D i).2 = segEnd D p s := by
  have h1 := edgeOff_low D i
  have h2 := edgeOff_high D i
  constructor
  · apply ivec_ext
    intro a
    rw [octCorner_get, edgeCorner_get]
    linear_combination s * h1 a
  · apply ivec_ext
    intro a
    rw [octCorner_get, edgeCorner_get, segEnd_get]
    have := h2 a
    by_cases ha : a = D
    · rw [if_pos ha] at this ⊢; linear_combination s * this
    · rw [if_neg ha] at this ⊢; linear_combination s * this

theorem cube_of_sub {c c' : Cube} (h : c.Sub c') (hk : c'.k ≤ c.k) : c' = c := by
  obtain ⟨lo, k⟩ := c
  obtain ⟨lo', k'⟩ := c'
  rw [cubeSub_iff] at h
  simp only [Cube.side] at h hk
  have hpow : (2 : Int) ^ k' ≤ 2 ^ k := by exact_mod_cast Nat.pow_le_pow_right (by norm_num) hk
  have hlo : lo' = lo := by apply ivec_ext; intro a; have := h a; omega
  have h2 : (2 : Int) ^ k = 2 ^ k' := by have := h .X; rw [hlo] at this; omega
  have : k = k' := Nat.pow_right_injective (le_refl 2) (by
    have : ((2 ^ k : Nat) : Int) = ((2 ^ k' : Nat) : Int) := by push_cast; exact h2
    exact_mod_cast this)
  rw [hlo, this]

/-- Both ends of a minimal edge are in each leaf around it. -/
theorem ends_closed {D : Axis} {p : IVec3} {j : Nat} {c : Cube} {i : Fin 4} (h : Cube.Sub ⟨Spec.edgeCorner D p (2 ^ j) i, j⟩ c) :
    c.Closed p ∧ c.Closed (segEnd D p (2 ^ j)) := by
  obtain ⟨h1, h2⟩ := corners_of_edge D p (2 ^ j) i
  have k1 := corner_closed ⟨Spec.edgeCorner D p (2 ^ j) i, j⟩ (dcCornersTable D i).1
  have k2 := corner_closed ⟨Spec.edgeCorner D p (2 ^ j) i, j⟩ (dcCornersTable D i).2
  simp only [Cube.side] at k1 k2
  rw [h1] at k1
  rw [h2] at k2
  exact ⟨closed_sub h k1, closed_sub h k2⟩

/-- The materials compared by `edgeProc` are those at the ends of the edge. -/
theorem dcMinimal_ends {g : Grid K} {t : DcNode K} {c : Cube} (ht : TreeOK g t c 0) {D : Axis} {p : IVec3} {j : Nat}
    {q : Fin 4 → Cube × DcLeaf K} (hm : MinimalEdge t c D p j q) :
    g.at p = some (dcMinimal D fun i => (q i).2).2.1 ∧ g.at (segEnd D p (2 ^ j)) = some (dcMinimal D fun i => (q i).2).2.2 := by
  obtain ⟨i, h1, h2⟩ := dcMinimal_spec D fun i => (q i).2
  obtain ⟨i0, h0⟩ := hm.least
  have hi := treeOK_leaf ht _ (hm.leaf i)
  have hi0 := treeOK_leaf ht _ (hm.leaf i0)
  have hk : (q i).1.k ≤ j := by
    have a := hi.2
    have b := hi0.2
    rw [h0] at b
    simp only at b
    have := h2 i0
    omega
  have hq := cube_of_sub (hm.contains i) hk
  have hc := hi.1.corners
  rw [hq] at hc
  simp only [Cube.side] at hc
  obtain ⟨e1, e2⟩ := corners_of_edge D p (2 ^ j) i
  have c1 := hc (dcCornersTable D i).1
  have c2 := hc (dcCornersTable D i).2
  rw [e1] at c1
  rw [e2] at c2
  rw [h1]
  exact ⟨c1, c2⟩

/-! ### Triangles -/

theorem addTriangle_any {m : Mesh K} {a b c : Nat} (ha : a < m.vertices.length) (hb : b < m.vertices.length)
    (hc : c < m.vertices.length) : m.addTriangle a b c = some ⟨m.vertices, m.indices ++ flatTri ([(a, b, c)].filter
      fun t => decide (t.1 ≠ t.2.1 ∧ t.2.1 ≠ t.2.2 ∧ t.1 ≠ t.2.2))⟩ := by
  unfold Mesh.addTriangle
  rw [if_pos ⟨ha, hb, hc⟩]
  by_cases h : a = b ∨ b = c ∨ a = c
  · rw [if_pos h, List.filter_cons, if_neg (by simp only [decide_eq_true_eq]; tauto)]
    simp [flatTri]
  · rw [if_neg h, List.filter_cons, if_pos (by simp only [decide_eq_true_eq]; tauto)]
    simp [flatTri]

theorem dcOctQuad_eq {m : Mesh K} {v0 v1 v2 v3 : Nat} (h0 : v0 < m.vertices.length) (h1 : v1 < m.vertices.length)
    (h2 : v2 < m.vertices.length) (h3 : v3 < m.vertices.length) (b : Bool) :
    dcOctQuad m v0 v1 v2 v3 (!b) = some ⟨m.vertices, m.indices ++ flatTri (octQuad v0 v1 v2 v3 b)⟩ := by
  unfold dcOctQuad octQuad
  cases b
  · rw [Bool.not_false, if_neg (by simp)]
    simp only [Bool.false_eq_true, if_false]
    rw [addTriangle_any h0 h2 h1]
    simp only [Option.bind_eq_bind, Option.bind_some]
    rw [addTriangle_any (by exact h0) (by exact h3) (by exact h2), List.append_assoc, ← flatTri_append, ← List.filter_append]
    rfl
  · rw [Bool.not_true, if_pos (by simp)]
    simp only [if_true]
    rw [addTriangle_any h0 h1 h2]
    simp only [Option.bind_eq_bind, Option.bind_some]
    rw [addTriangle_any (by exact h0) (by exact h2) (by exact h3), List.append_assoc, ← flatTri_append, ← List.filter_append]
    rfl

/-- One visit. -/
theorem dcCall_eq {g : Grid K} {t : DcNode K} {c : Cube} (ht : TreeOK g t c 0) {cells : List Cube}
    (hcells : ∀ x ∈ (locate t c).leaves, x.2.homogeneous = false → x.1 ∈ cells ∧ x.2.vertexId = some (cells.idxOf x.1))
    {D : Axis} {p : IVec3} {j : Nat} {q : Fin 4 → Cube × DcLeaf K} (hm : MinimalEdge t c D p j q) (mesh : Mesh K)
    (hv : mesh.vertices.length = cells.length) :
    dcCall mesh (D, fun i => Oct.leaf (q i).2) =
      some ⟨mesh.vertices, mesh.indices ++ flatTri (octEdgeQuad g cells D p j fun i => (q i).1)⟩ ∧
    (solidAt g p ≠ solidAt g (segEnd D p (2 ^ j)) → ∀ i, (q i).1 ∈ cells) := by
  obtain ⟨e1, e2⟩ := dcMinimal_ends ht hm
  have s1 := solid_of e1
  have s2 := solid_of e2
  have hf : ![(q 0).2, (q 1).2, (q 2).2, (q 3).2] = fun i => (q i).2 := by
    funext i; fin_cases i <;> rfl
  have hcross : solidAt g p ≠ solidAt g (segEnd D p (2 ^ j)) →
      ∀ i, (q i).1 ∈ cells ∧ (q i).2.vertexId = some (cells.idxOf (q i).1) := by
    intro hne i
    apply hcells _ (hm.leaf i)
    rw [hetero_false]
    intro hh
    have hl := (treeOK_leaf ht _ (hm.leaf i)).1
    obtain ⟨k1, k2⟩ := ends_closed (hm.contains i)
    exact hne ((hl.homog hh _ k1).trans (hl.homog hh _ k2).symm)
  refine ⟨?_, fun h i => (hcross h i).1⟩
  unfold dcCall
  simp only [dcLeafOf, Option.bind_eq_bind, Option.bind_some, hf]
  unfold dcEdgeLeaves octEdgeQuad
  dsimp only
  generalize dcMinimal D (fun i => (q i).2) = mm at *
  by_cases hne : solidAt g p = solidAt g (segEnd D p (2 ^ j))
  · rw [if_pos hne]
    have : mm.2.1 = mm.2.2 ∨ (mm.2.1 ≠ .Empty ∧ mm.2.2 ≠ .Empty) := by
      rw [s1, s2] at hne
      by_cases a : mm.2.1 = .Empty <;> by_cases b : mm.2.2 = .Empty <;> simp [a, b] at hne ⊢
    have hr : some mesh = some (⟨mesh.vertices, mesh.indices ++ flatTri []⟩ : Mesh K) := by simp [flatTri]
    rcases this with h | h
    · rw [if_pos h, hr]
    · by_cases h' : mm.2.1 = mm.2.2
      · rw [if_pos h', hr]
      · rw [if_neg h', if_pos h, hr]
  · rw [if_neg hne]
    have hc := hcross hne
    rw [s1, s2] at hne
    rw [if_neg (by intro h; apply hne; rw [h]), if_neg (by rintro ⟨a, b⟩; apply hne; simp [a, b])]
    simp only [(hc _).2, Option.bind_eq_bind, Option.bind_some]
    have hlt : ∀ i, cells.idxOf (q i).1 < mesh.vertices.length := fun i => by
      rw [hv]; exact List.idxOf_lt_length_of_mem (hc i).1
    have hb : decide (mm.2.1 = .Empty) = !(solidAt g p) := by rw [s1]; by_cases a : mm.2.1 = .Empty <;> simp [a]
    rw [hb, dcOctQuad_eq (hlt 0) (hlt 1) (hlt 2) (hlt 3)]

theorem dcCalls_eq {g : Grid K} {t : DcNode K} {c : Cube} (ht : TreeOK g t c 0) {cells : List Cube}
    (hcells : ∀ x ∈ (locate t c).leaves, x.2.homogeneous = false → x.1 ∈ cells ∧ x.2.vertexId = some (cells.idxOf x.1))
    (visits : List (Axis × IVec3 × Nat × (Fin 4 → Cube × DcLeaf K)))
    (hv : ∀ D p j q, (D, p, j, q) ∈ visits → MinimalEdge t c D p j q) (mesh : Mesh K)
    (hl : mesh.vertices.length = cells.length) :
    (visits.map fun v => (v.1, fun i => Oct.leaf (v.2.2.2 i).2)).foldlM dcCall mesh =
      some ⟨mesh.vertices, mesh.indices ++ flatTri (visits.flatMap fun v =>
        octEdgeQuad g cells v.1 v.2.1 v.2.2.1 fun i => (v.2.2.2 i).1)⟩ := by
  induction visits generalizing mesh with
  | nil => simp [flatTri]
  | cons v visits ih =>
    obtain ⟨D, p, j, q⟩ := v
    rw [List.map_cons, List.foldlM_cons, (dcCall_eq ht hcells (hv D p j q List.mem_cons_self) mesh hl).1]
    simp only [Option.bind_eq_bind, Option.bind_some]
    rw [ih (fun D p j q h => hv D p j q (List.mem_cons_of_mem _ h)) _ (by exact hl), List.flatMap_cons, flatTri_append, List.append_assoc]

theorem minimalSeg_of {N L : Type} {t : Oct N L} {c : Cube} {D : Axis} {p : IVec3} {j : Nat} {q : Fin 4 → Cube × L}
    (h : MinimalEdge t c D p j q) : MinimalSeg (leafCubes t c) D p j fun i => (q i).1 :=
  ⟨fun i => List.mem_map_of_mem (h.leaf i), h.contains, h.least⟩

theorem minimalEdge_of {N L : Type} {t : Oct N L} {c : Cube} {D : Axis} {p : IVec3} {j : Nat} {q : Fin 4 → Cube}
    (h : MinimalSeg (leafCubes t c) D p j q) : ∃ q' : Fin 4 → Cube × L, MinimalEdge t c D p j q' ∧ ∀ i, (q' i).1 = q i := by
  have : ∀ i, ∃ x ∈ (locate t c).leaves, x.1 = q i := fun i => by
    obtain ⟨x, h1, h2⟩ := List.mem_map.1 (h.leaf i); exact ⟨x, h1, h2⟩
  choose q' h1 h2 using this
  refine ⟨q', ⟨h1, fun i => ?_, ?_⟩, h2⟩
  · rw [h2]; exact h.contains i
  · obtain ⟨i, hi⟩ := h.least; exact ⟨i, by rw [h2]; exact hi⟩

/-- `contour` on a built tree. -/
theorem contour_eq {g : Grid K} {o : DcOctree K} {c : Cube} (ht : TreeOK g o.root c 0) (hk : c.k ≤ 10) :
    ∃ (vs : List (MeshVertex K)) (o'' : DcOctree K) (visits : List (Axis × IVec3 × Nat × (Fin 4 → Cube))),
      let cells := (leafCubes o.root c).filter fun x => decide (Hetero g x)
      o.contour = some (⟨⟨vs, flatTri (visits.flatMap fun v => octEdgeQuad g cells v.1 v.2.1 v.2.2.1 v.2.2.2)⟩,
        o.globalPos, o.globalScale⟩, o'') ∧
      (visits.map fun v => (v.1, v.2.1, v.2.2.1)).Nodup ∧
      (∀ D p j q, (D, p, j, q) ∈ visits ↔ MinimalSeg (leafCubes o.root c) D p j q) ∧
      List.Forall₂ LeafVertex (crossedLeaves o.root.leaves) vs ∧
      (crossedLeaves o.root.leaves).length = cells.length ∧
      (∀ D p j q, (D, p, j, q) ∈ visits → solidAt g p ≠ solidAt g (segEnd D p (2 ^ j)) → ∀ i, q i ∈ cells) ∧
      o''.level = o.level ∧ o''.globalPos = o.globalPos ∧ o''.globalScale = o.globalScale ∧
      o''.root.map id DcLeaf.bare = o.root.map id DcLeaf.bare := by
  have hleaf := treeOK_leaf ht
  have hlen : o.root.leaves.length ≤ 4294967295 := by
    refine (leaves_length o.root).trans ((Nat.pow_le_pow_right (by norm_num) ((treeOK_height ht).trans hk)).trans (by norm_num))
  obtain ⟨vs, t', a1, a2, a3, a4⟩ := dcMakeVertices_eq o.root Mesh.new (by
    intro l hl hh
    rw [← leaves_locate o.root c] at hl
    obtain ⟨x, hx, rfl⟩ := List.mem_map.1 hl
    obtain ⟨d, hd, -⟩ := (hleaf x hx).1.dual hh
    exact ⟨d, hd⟩) (by simpa [Mesh.new] using hlen)
  have ht' : TreeOK g t' c 0 := by rw [← treeOK_bare, a3, treeOK_bare]; exact ht
  have hcub : leafCubes t' c = leafCubes o.root c := by
    rw [← leafCubes_map id DcLeaf.bare t', a3, leafCubes_map]
  have hleaf' := treeOK_leaf ht'
  have hh : ∀ x ∈ (locate t' c).leaves, (!x.2.homogeneous) = decide (Hetero g x.1) := by
    intro x hx
    have := homogeneous_iff (hleaf' x hx).1.corners
    by_cases b : Hetero g x.1
    · have : x.2.homogeneous = false := by rw [hetero_false, this]; simpa using b
      simp [this, b]
    · simp [this.2 b, b]
  have hfil : ((locate t' c).leaves.filter fun x => !x.2.homogeneous).map (·.1) =
      (leafCubes o.root c).filter fun x => decide (Hetero g x) := by
    rw [← hcub, leafCubes, List.filter_map]
    congr 1
    exact List.filter_congr hh
  have hcr : (crossedLeaves o.root.leaves).length = ((leafCubes o.root c).filter fun x => decide (Hetero g x)).length := by
    have h1 : crossedLeaves o.root.leaves = ((locate o.root c).leaves.filter fun x => !x.2.homogeneous).map (·.2) := by
      rw [← leaves_locate o.root c, crossedLeaves, List.filter_map]; rfl
    rw [h1, List.length_map, leafCubes, List.filter_map, List.length_map]
    congr 1
    apply List.filter_congr
    intro x hx
    have := homogeneous_iff (hleaf x hx).1.corners
    by_cases b : Hetero g x.1
    · have : x.2.homogeneous = false := by rw [hetero_false, this]; simpa using b
      simp [this, b]
    · simp [this.2 b, b]
  have hids : ∀ x ∈ (locate t' c).leaves, x.2.homogeneous = false →
      x.1 ∈ ((leafCubes o.root c).filter fun x => decide (Hetero g x)) ∧
      x.2.vertexId = some (((leafCubes o.root c).filter fun x => decide (Hetero g x)).idxOf x.1) := by
    intro x hx hxh
    have := assigned_id 0 (locate t' c).leaves o.root.leaves (by rw [leaves_locate, a2]; rfl)
      (leafCubes_nodup (placed_locate t' c (treeOK_height ht'))) x hx hxh
    rw [hfil, Nat.zero_add] at this
    exact this
  obtain ⟨visits, b1, b2, b3⟩ := C21_dc_minimal_edges t' c (treeOK_height ht')
  have hvl : vs.length = ((leafCubes o.root c).filter fun x => decide (Hetero g x)).length := by
    rw [← hcr]; exact a4.length_eq.symm
  have hcalls := dcCalls_eq ht' hids visits (fun D p j q h => (b3 D p j q).1 h) ⟨vs, []⟩ hvl
  refine ⟨vs, { o with root := t' }, visits.map fun v => (v.1, v.2.1, v.2.2.1, fun i => (v.2.2.2 i).1), ?_, ?_, ?_, a4, hcr, ?_,
    rfl, rfl, rfl, a3⟩
  · unfold DcOctree.contour
    rw [a1]
    simp only [Option.bind_eq_bind, Option.bind_some]
    rw [b1]
    simp only [Mesh.new, List.nil_append]
    rw [hcalls]
    simp only [Option.bind_some, List.nil_append, List.flatMap_map]
  · rw [List.map_map]; exact b2
  · intro D p j q
    rw [← hcub]
    constructor
    · intro h
      obtain ⟨⟨D', p', j', q'⟩, hv, he⟩ := List.mem_map.1 h
      simp only [Prod.mk.injEq] at he
      obtain ⟨rfl, rfl, rfl, rfl⟩ := he
      exact minimalSeg_of ((b3 _ _ _ _).1 hv)
    · intro h
      obtain ⟨q', h1, h2⟩ := minimalEdge_of h
      refine List.mem_map.2 ⟨(D, p, j, q'), (b3 _ _ _ _).2 h1, ?_⟩
      simp only [Prod.mk.injEq, true_and]
      funext i
      exact h2 i
  · intro D p j q h hne
    obtain ⟨⟨D', p', j', q'⟩, hv, he⟩ := List.mem_map.1 h
    simp only [Prod.mk.injEq] at he
    obtain ⟨rfl, rfl, rfl, rfl⟩ := he
    exact (dcCall_eq ht' hids ((b3 _ _ _ _).1 hv) ⟨vs, []⟩ hvl).2 hne

end Isomesh
