import Verif.Proofs.DcContour2

/-! C22, C26, C52: `DC_Octree` built from a filled grid. -/

namespace Isomesh
open Spec

set_option linter.unusedSectionVars false
variable {K : Type} [Add K] [_root_.Sub K] [Mul K] [Div K] [Neg K] [Zero K] [One K] [OfNat K 2] [OfScientific K] [NatCast K] [IntCast K]
  [Fabs K] [Elem K] [LinearOrder K] [RoundedLaws K]

theorem rootCube_eq (level : Nat) : (⟨rootCorner level, level⟩ : Cube) = rootCube level := by
  unfold rootCube rootCorner
  cases level with
  | zero => rfl
  | succ k =>
    have : Int.tdiv (-(2 ^ (k + 1))) 2 = -2 ^ k := by
      rw [Int.neg_tdiv, two_pow_succ']
      congr 1
      exact Int.mul_tdiv_cancel_left _ (by norm_num)
    rw [if_neg (Nat.succ_ne_zero k), this]
    rfl

theorem rootCube_k (level : Nat) : (rootCube level).k = level := by rw [← rootCube_eq]

theorem level_le {g : Grid K} (hg : Filled g) {level : Nat} (h : CubeIn g.maxCoord (rootCube level)) : level ≤ 10 := by
  have h1 := h _ (lo_closed (rootCube level))
  have h2 := h _ (corner_closed (rootCube level) 7)
  have hs : (rootCube level).side = 2 ^ level := by rw [Cube.side, rootCube_k]
  rw [hs] at h2
  have hx : (octCorner (rootCube level).lo (2 ^ level) 7).x = (rootCube level).lo.x + 2 ^ level := by
    simp [octCorner, octOff]
  have a := h1.1
  have b := h2.1
  rw [hx] at b
  have hm : g.maxCoord * 2 ≤ 1024 := by
    have e := hg.wf.half_eq
    have l := hg.wf.le
    unfold Grid.maxCoord
    omega
  have h3 : (2 : Int) ^ level ≤ 2 ^ 10 := by norm_num; omega
  have h4 : (2 : Nat) ^ level ≤ 2 ^ 10 := by exact_mod_cast h3
  exact (Nat.pow_le_pow_iff_right (by norm_num)).1 h4

/-- The tree of a built octree. -/
theorem build_ok {env : DcEnv K} {g : Grid K} (hg : Filled g) {o o' : DcOctree K} {solver q' : Qef K 3} {epsilon : K} {simplify : Bool}
    (hin : CubeIn g.maxCoord (rootCube o.level)) (hb : o.build env g solver epsilon simplify = some (q', o')) :
    TreeOK g o'.root (rootCube o.level) 0 ∧ o'.level = o.level ∧ o'.globalPos = o.globalPos ∧ o'.globalScale = o.globalScale := by
  unfold DcOctree.build at hb
  split at hb
  · cases hb
  rename_i q root hn
  cases hb
  refine ⟨?_, rfl, rfl, rfl⟩
  rw [← rootCube_eq] at hin ⊢
  exact dcBuildNode_ok hg _ _ _ _ _ _ hin hn

/-- C22.  Whatever the error bound and the simplification flag, if `build` on a filled grid completes, then `contour`
completes, and:
* the triangles are exactly those of the minimal edges of the leaves with ends on different sides of the surface, each
  edge contributing once, wound according to the side on which its lesser end lies;
* every leaf around such an edge is crossed by the surface and so has a vertex; all indices are valid and no triangle has
  equal corners;
* a leaf without a vertex is uniform: all its lattice points, not only its corners, are on the same side. -/
theorem C22_contour {env : DcEnv K} {g : Grid K} (hg : Filled g) {o o' : DcOctree K} {solver q' : Qef K 3} {epsilon : K} {simplify : Bool}
    (hin : CubeIn g.maxCoord (rootCube o.level)) (hb : o.build env g solver epsilon simplify = some (q', o')) :
    ∃ (r : PlacedMesh K) (o'' : DcOctree K) (visits : List (Axis × IVec3 × Nat × (Fin 4 → Cube))),
      let cubes := leafCubes o'.root (rootCube o.level)
      let cells := cubes.filter fun c => decide (Hetero g c)
      o'.contour = some (r, o'') ∧ r.globalPos = o.globalPos ∧ r.globalScale = o.globalScale ∧
      (visits.map fun v => (v.1, v.2.1, v.2.2.1)).Nodup ∧
      (∀ D p j q, (D, p, j, q) ∈ visits ↔ MinimalSeg cubes D p j q) ∧
      triangles r.mesh.indices = visits.flatMap (fun v => octEdgeQuad g cells v.1 v.2.1 v.2.2.1 v.2.2.2) ∧
      (∀ D p j q, MinimalSeg cubes D p j q → solidAt g p ≠ solidAt g (segEnd D p (2 ^ j)) → ∀ i, q i ∈ cells) ∧
      r.mesh.vertices.length = cells.length ∧ cells.Nodup ∧ r.mesh.indices.length % 3 = 0 ∧
      (∀ t ∈ triangles r.mesh.indices, t.1 < r.mesh.vertices.length ∧ t.2.1 < r.mesh.vertices.length ∧
        t.2.2 < r.mesh.vertices.length ∧ t.1 ≠ t.2.1 ∧ t.2.1 ≠ t.2.2 ∧ t.1 ≠ t.2.2) ∧
      (∀ c ∈ cubes, ¬ Hetero g c → ∀ p, c.Closed p → solidAt g p = solidAt g c.lo) := by
  obtain ⟨ht, h1, h2, h3⟩ := build_ok hg hin hb
  have hk : (rootCube o.level).k ≤ 10 := by rw [rootCube_k]; exact level_le hg hin
  obtain ⟨vs, o'', visits, a1, a2, a3, a4, a5, a6, -⟩ := contour_eq ht hk
  have hvl : vs.length = ((leafCubes o'.root (rootCube o.level)).filter fun c => decide (Hetero g c)).length := by
    rw [← a5]; exact a4.length_eq.symm
  refine ⟨_, o'', visits, a1, h2, h3, a2, a3, triangles_flatTri _, fun D p j q hm => a6 D p j q ((a3 D p j q).2 hm), hvl,
    (leafCubes_nodup (placed_locate _ _ (treeOK_height ht))).filter _, ?_, ?_, ?_⟩
  · simp only [flatTri, List.length_flatMap]
    simp
  · intro t htt
    simp only [triangles_flatTri] at htt
    obtain ⟨⟨D, p, j, q⟩, hv, htt⟩ := List.mem_flatMap.1 htt
    simp only at htt
    unfold octEdgeQuad at htt
    split at htt
    · simp at htt
    rename_i hne
    have hm := a6 D p j q hv hne
    have hlt : ∀ i, ((leafCubes o'.root (rootCube o.level)).filter fun c => decide (Hetero g c)).idxOf (q i) < vs.length := by
      intro i; rw [hvl]; exact List.idxOf_lt_length_of_mem (hm i)
    unfold octQuad at htt
    obtain ⟨htt, hd⟩ := List.mem_filter.1 htt
    have hd := of_decide_eq_true hd
    refine ⟨?_, ?_, ?_, hd.1, hd.2.1, hd.2.2⟩ <;> split at htt <;>
      simp only [List.mem_cons, List.not_mem_nil, or_false] at htt <;> rcases htt with rfl | rfl <;> exact hlt _
  · intro c hc hh p hp
    obtain ⟨x, hx, rfl⟩ := List.mem_map.1 hc
    have hl := (treeOK_leaf ht x hx).1
    exact hl.homog ((homogeneous_iff hl.corners).2 hh) p hp

/-- The material picked for a crossed leaf. -/
theorem leaf_material {g : Grid K} {c : Cube} {l : DcLeaf K} (h : ∀ i, g.at (octCorner c.lo c.side i) = some (l.corners i))
    (hh : Hetero g c) : (FilterFast.new.addMany (List.ofFn l.corners)).select ≠ .Empty ∧
      (∃ i, g.at (octCorner c.lo c.side i) = some (FilterFast.new.addMany (List.ofFn l.corners)).select) ∧
      ∀ m, m ≠ .Empty → (Finset.univ.filter fun i => l.corners i ≠ .Empty).card <
        2 * (Finset.univ.filter fun i => l.corners i = m).card → (FilterFast.new.addMany (List.ofFn l.corners)).select = m := by
  have hi := FastInv.new.addMany (List.ofFn l.corners) (by simp)
  rw [List.nil_append] at hi
  have hne : (FilterFast.new.addMany (List.ofFn l.corners)).select ≠ .Empty := by
    intro e
    have := (hi.empty e).2
    rw [List.filter_eq_nil_iff] at this
    obtain ⟨i, j, hij⟩ := hh
    apply hij
    rw [solid_of (h i), solid_of (h j)]
    have a := this (l.corners i) (List.mem_ofFn.2 ⟨i, rfl⟩)
    have b := this (l.corners j) (List.mem_ofFn.2 ⟨j, rfl⟩)
    simp only [ne_eq, decide_not, Bool.not_eq_eq_eq_not, Bool.not_true, decide_eq_false_iff_not, not_not] at a b
    rw [a, b]
  refine ⟨hne, ?_, ?_⟩
  · have := (hi.nonempty hne).2
    obtain ⟨i, hi⟩ := List.mem_ofFn.1 this
    exact ⟨i, by rw [h i, hi]; rfl⟩
  · intro m hm hcard
    apply fast_select_of_margin hi hm
    unfold margin
    have e1 : ((List.ofFn l.corners).filter (· ≠ .Empty)).length = (Finset.univ.filter fun i => l.corners i ≠ .Empty).card := by
      rw [List.ofFn_eq_map, List.filter_map, List.length_map]
      rfl
    have e2 : ((List.ofFn l.corners).filter (· ≠ .Empty)).count m = (Finset.univ.filter fun i => l.corners i = m).card := by
      rw [List.count_filter (by simpa using hm), List.ofFn_eq_map, List.count, List.countP_map, List.countP_eq_length_filter]
      have : (fun a => a == m) ∘ l.corners = fun i => decide (l.corners i = m) := by
        funext i; simp only [Function.comp]; rfl
      rw [this]
      rfl
    rw [e1, e2]
    push_cast
    omega

/-- C26.  The vertices of the mesh are those of the leaves crossed by the surface, in child order; each lies in the closed
cube of its leaf, and its material is a non-`Empty` one of the corners of this cube, namely the one found at more than
half of the solid corners, if there is such a one. -/
theorem C26_vertices {env : DcEnv K} {g : Grid K} (hg : Filled g) {o o' o'' : DcOctree K} {solver q' : Qef K 3} {epsilon : K}
    {simplify : Bool} (hin : CubeIn g.maxCoord (rootCube o.level))
    (hb : o.build env g solver epsilon simplify = some (q', o')) {r : PlacedMesh K} (hc : o'.contour = some (r, o'')) :
    List.Forall₂ (fun (c : Cube) (v : MeshVertex K) => c.ClosedR v.position ∧ v.material ≠ .Empty ∧
        (∃ i, g.at (octCorner c.lo c.side i) = some v.material) ∧
        ∀ m, m ≠ .Empty → (Finset.univ.filter fun i => solidAt g (octCorner c.lo c.side i) = true).card <
          2 * (Finset.univ.filter fun i => g.at (octCorner c.lo c.side i) = some m).card → v.material = m)
      ((leafCubes o'.root (rootCube o.level)).filter fun c => decide (Hetero g c)) r.mesh.vertices := by
  obtain ⟨ht, -⟩ := build_ok hg hin hb
  have hk : (rootCube o.level).k ≤ 10 := by rw [rootCube_k]; exact level_le hg hin
  obtain ⟨vs, o1, visits, a1, -, -, a4, -⟩ := contour_eq ht hk
  rw [a1] at hc
  cases hc
  have hleaf := treeOK_leaf ht
  have e1 : crossedLeaves o'.root.leaves = ((locate o'.root (rootCube o.level)).leaves.filter fun x => !x.2.homogeneous).map (·.2) := by
    rw [← leaves_locate o'.root (rootCube o.level), crossedLeaves, List.filter_map]; rfl
  have e2 : ((leafCubes o'.root (rootCube o.level)).filter fun c => decide (Hetero g c)) =
      ((locate o'.root (rootCube o.level)).leaves.filter fun x => !x.2.homogeneous).map (·.1) := by
    rw [leafCubes, List.filter_map]
    congr 1
    apply List.filter_congr
    intro x hx
    have := homogeneous_iff (hleaf x hx).1.corners
    by_cases b : Hetero g x.1
    · have : x.2.homogeneous = false := by rw [hetero_false, this]; simpa using b
      simp [this, b]
    · simp [this.2 b, b]
  rw [e1, List.forall₂_map_left_iff] at a4
  rw [e2, List.forall₂_map_left_iff]
  have a5 : List.Forall₂ (fun x v => x ∈ (locate o'.root (rootCube o.level)).leaves.filter (fun x => !x.2.homogeneous) ∧ LeafVertex x.2 v)
      ((locate o'.root (rootCube o.level)).leaves.filter fun x => !x.2.homogeneous) vs := by
    have := List.forall₂_iff_get.1 a4
    exact List.forall₂_iff_get.2 ⟨this.1, fun i h1 h2 => ⟨List.get_mem _ _, this.2 i h1 h2⟩⟩
  refine a5.imp ?_
  rintro x v ⟨hx, d, hd, rfl⟩
  obtain ⟨hx, hf⟩ := List.mem_filter.1 hx
  have hl := (hleaf x hx).1
  have hf : x.2.homogeneous = false := by simpa using hf
  have hh : Hetero g x.1 := by
    have := homogeneous_iff hl.corners
    by_contra hcon
    rw [this.2 hcon] at hf
    cases hf
  obtain ⟨d', hd', hcl⟩ := hl.dual hf
  rw [hd] at hd'
  cases hd'
  obtain ⟨m1, m2, m3⟩ := leaf_material hl.corners hh
  refine ⟨hcl, m1, m2, fun m hm hcard => m3 m hm ?_⟩
  simp only [solid_of (hl.corners _), decide_eq_true_eq, hl.corners, Option.some.injEq] at hcard
  exact hcard

/-- C52.  The size check of the octree constructors passes exactly for the powers of two. -/
theorem C52_size (rootSize : Int) : octreeSizeOK rootSize = true ↔ ∃ k : Nat, rootSize = 2 ^ k := by
  unfold octreeSizeOK
  rw [Bool.not_eq_true', Bool.or_eq_false_iff, decide_eq_false_iff_not, decide_eq_false_iff_not, not_not]
  constructor
  · rintro ⟨h1, h2⟩
    have h3 : (rootSize - 1).toNat = rootSize.toNat - 1 := by omega
    rw [h3] at h2
    obtain ⟨k, hk⟩ := (and_pred_eq_zero_iff rootSize.toNat (by omega)).1 h2
    refine ⟨k, ?_⟩
    have : rootSize = (rootSize.toNat : Int) := by omega
    rw [this, hk]; push_cast; rfl
  · rintro ⟨k, rfl⟩
    have h0 := two_pow_pos' k
    have h1 : ((2 : Int) ^ k).toNat = 2 ^ k := by
      have : ((2 ^ k : Nat) : Int) = 2 ^ k := by push_cast; rfl
      rw [← this, Int.toNat_natCast]
    refine ⟨by omega, ?_⟩
    have h2 : ((2 : Int) ^ k - 1).toNat = 2 ^ k - 1 := by omega
    rw [h2, h1]
    exact (and_pred_eq_zero_iff _ (Nat.two_pow_pos k)).2 ⟨k, rfl⟩

end Isomesh
