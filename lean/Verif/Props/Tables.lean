import Verif.Model.Tables
import Verif.Spec.Cube
import Verif.Proofs.Reach

/-! C14, C25, C27: the look-up tables agree with the geometry of the cube, for all 256 corner patterns. -/

namespace Isomesh

/-! ### Cell edges -/

/-- First/second corner of cell edge `e` (`kCellEdgeEndpoint[e]`). -/
def edgeCorner (e k : Nat) : Nat := (kCellEdgeEndpoint.getD e []).getD k 0

/-- Cell edge `e` crosses the surface in pattern `m`: its two corners are of different kinds. -/
def Spec.crosses (m e : Nat) : Bool := Spec.solid m (edgeCorner e 0) != Spec.solid m (edgeCorner e 1)

theorem cell_edges_1 : ∀ e < 12, Spec.adjacentCorners (edgeCorner e 0) (edgeCorner e 1) = true ∧
    edgeCorner e 0 < edgeCorner e 1 ∧
    edgeCorner e 0 ^^^ edgeCorner e 1 = [2, 4, 1].getD (kCellEdgeDirection.getD e 9) 0 := by decide +kernel

theorem cell_edges_2 : ∀ c < 8, ∀ d < 8, c < d → Spec.adjacentCorners c d = true →
    ∃ e < 12, edgeCorner e 0 = c ∧ edgeCorner e 1 = d := by decide +kernel

theorem cell_edges_3 : ∀ e < 12, ∀ e' < 12, edgeCorner e 0 = edgeCorner e' 0 →
    edgeCorner e 1 = edgeCorner e' 1 → e = e' := by decide +kernel

theorem cell_corners : ∀ c < 8, kCellCornerOffset[c]? = some (Spec.cornerPos c) := by decide +kernel

/-- C14, edges: the twelve table edges are exactly the edges of the cube, each listed once with its lesser
corner first; the direction table gives the axis along which the corners differ; the corner offset table
gives the corner coordinates. -/
theorem C14_cell_edges :
    (∀ e < 12, Spec.adjacentCorners (edgeCorner e 0) (edgeCorner e 1) = true ∧ edgeCorner e 0 < edgeCorner e 1 ∧
      edgeCorner e 0 ^^^ edgeCorner e 1 = [2, 4, 1].getD (kCellEdgeDirection.getD e 9) 0) ∧
    (∀ c < 8, ∀ d < 8, c < d → Spec.adjacentCorners c d = true →
      ∃ e < 12, edgeCorner e 0 = c ∧ edgeCorner e 1 = d) ∧
    (∀ e < 12, ∀ e' < 12, edgeCorner e 0 = edgeCorner e' 0 → edgeCorner e 1 = edgeCorner e' 1 → e = e') ∧
    (∀ c < 8, kCellCornerOffset[c]? = some (Spec.cornerPos c)) ∧
    kCellEdgeEndpoint.length = 12 ∧ kCellEdgeDirection.length = 12 ∧ kCellCornerOffset.length = 8 :=
  ⟨cell_edges_1, cell_edges_2, cell_edges_3, cell_corners, rfl, rfl, rfl⟩

/-- C14, edge mask: for each of the 256 corner patterns, bit `e` of the table entry is set iff cell edge `e`
joins a solid and an empty corner; no other bits are set. -/
theorem C14_edge_mask : kMcVertexMaskToEdgeMask.length = 256 ∧ ∀ m < 256,
    ∃ w, kMcVertexMaskToEdgeMask[m]? = some w ∧ w < 4096 ∧ ∀ e < 12, w.testBit e = Spec.crosses m e := by
  have h : kMcVertexMaskToEdgeMask.length = 256 ∧ ∀ m < 256, kMcVertexMaskToEdgeMask.getD m 4096 < 4096 ∧
      ∀ e < 12, (kMcVertexMaskToEdgeMask.getD m 4096).testBit e = Spec.crosses m e := by decide +kernel
  refine ⟨h.1, fun m hm => ?_⟩
  have hl : m < kMcVertexMaskToEdgeMask.length := by rw [h.1]; exact hm
  have := h.2 m hm
  rw [List.getD_eq_getElem _ _ hl] at this
  exact ⟨_, List.getElem?_eq_getElem hl, this⟩

/-! ### Triangles of a pattern -/

/-- Read a table row in groups of three up to the terminator. -/
def rowTriangles : List Int → List (Nat × Nat × Nat)
  | a :: b :: c :: rest => if a < 0 then [] else (a.toNat, b.toNat, c.toNat) :: rowTriangles rest
  | _ => []

/-- The triangles of corner pattern `m` (three cell edge numbers each). -/
def mcTriangles (m : Nat) : List (Nat × Nat × Nat) := rowTriangles (kMcTriangleTable.getD m [])

/-- C14, triangles: every row has 16 entries, consists of `3n` (`n <= 5`) edge numbers followed by a `-1`
terminator, and each of the `n` triangles has three different edges, each of which crosses the surface. -/
theorem C14_triangle_table : kMcTriangleTable.length = 256 ∧ ∀ m < 256,
    (kMcTriangleTable.getD m []).length = 16 ∧
    (mcTriangles m).length ≤ 5 ∧
    (kMcTriangleTable.getD m []).take (3 * (mcTriangles m).length) =
      (mcTriangles m).flatMap (fun t => [(t.1 : Int), (t.2.1 : Int), (t.2.2 : Int)]) ∧
    (kMcTriangleTable.getD m [])[3 * (mcTriangles m).length]? = some (-1) ∧
    ∀ t ∈ mcTriangles m, t.1 < 12 ∧ t.2.1 < 12 ∧ t.2.2 < 12 ∧ t.1 ≠ t.2.1 ∧ t.2.1 ≠ t.2.2 ∧ t.1 ≠ t.2.2 ∧
      Spec.crosses m t.1 = true ∧ Spec.crosses m t.2.1 = true ∧ Spec.crosses m t.2.2 = true := by
  decide +kernel

/-- C14: every crossing edge of a pattern is a corner of some triangle (no crossing is lost). -/
theorem C14_edges_used : ∀ m < 256, ∀ e < 12, Spec.crosses m e = true →
    ∃ t ∈ mcTriangles m, t.1 = e ∨ t.2.1 = e ∨ t.2.2 = e := by
  decide +kernel

/-! ### C25 -/

/-- The mask computed by `checkTopoSafety` for corner pattern `m` (dc_octree.cpp:438-444, 448-454). -/
def dcMask (m : Nat) : Nat :=
  (List.range 8).foldl (fun w i => if Spec.solid m i then w ||| (1 <<< kDcToMc.getD i 0) else w) 0

/-- Corners of kind `kind` adjacent to corner `a` of the same kind. -/
def cornerNb (m : Nat) (kind : Bool) (a : Nat) : Nat :=
  maskOf (fun b => Spec.adjacentCorners a b && Spec.solid m a == kind && Spec.solid m b == kind) 8

theorem cornerNb_spec {m a b : Nat} {kind : Bool} : (cornerNb m kind a).testBit b = true ↔
    Spec.adjacentCorners a b = true ∧ Spec.solid m a = kind ∧ Spec.solid m b = kind := by
  unfold cornerNb
  rw [testBit_maskOf]
  simp only [Bool.and_eq_true, decide_eq_true_eq, beq_iff_eq]
  constructor
  · rintro ⟨-, ⟨h1, h2⟩, h3⟩; exact ⟨h1, h2, h3⟩
  · rintro ⟨h1, h2, h3⟩
    refine ⟨?_, ⟨h1, h2⟩, h3⟩
    simp [Spec.adjacentCorners] at h1; omega

/-- Corners reachable from corner `c`. -/
def cornerReach (m : Nat) (kind : Bool) (c : Nat) : Nat := reachMask (cornerNb m kind) 8 4 (1 <<< c)

/-- The computed sets are closed, i.e. really the reachable sets. -/
theorem cornerReach_closed : ∀ m < 256, ∀ kind, ∀ c < 8, (cornerReach m kind c).testBit c = true ∧
    ∀ a < 8, (cornerReach m kind c).testBit a = true →
      cornerReach m kind c ||| cornerNb m kind a = cornerReach m kind c := by
  decide +kernel

/-- Boolean form of connectedness. -/
def cornersConnectedB (m : Nat) (kind : Bool) : Bool :=
  (List.range 8).all fun c => (List.range 8).all fun d =>
    !(Spec.solid m c == kind) || !(Spec.solid m d == kind) || (cornerReach m kind c).testBit d

theorem shiftLeft_testBit {c d : Nat} (h : (1 <<< c).testBit d = true) : d = c := by
  rw [Nat.testBit_shiftLeft] at h
  simp only [Bool.and_eq_true, decide_eq_true_eq] at h
  have := Nat.testBit_one_eq_true_iff_self_eq_zero.1 h.2
  omega

theorem cornersConnected_iff {m : Nat} (hm : m < 256) (kind : Bool) :
    Spec.CornersConnected m kind ↔ cornersConnectedB m kind = true := by
  have key : ∀ c < 8, ∀ d, (cornerReach m kind c).testBit d = true ↔
      Relation.ReflTransGen (fun a b => Spec.adjacentCorners a b = true ∧ Spec.solid m a = kind ∧
        Spec.solid m b = kind) c d := by
    intro c hc d
    constructor
    · intro h
      refine reachMask_sound (nb := cornerNb m kind) (c := c) (R := fun a b => Spec.adjacentCorners a b = true ∧
        Spec.solid m a = kind ∧ Spec.solid m b = kind) (fun a b h => cornerNb_spec.1 h) 8 4 (1 <<< c) ?_ d h
      intro d hd
      rw [shiftLeft_testBit hd]
    · intro h
      refine reach_closed (P := fun d => (cornerReach m kind c).testBit d = true)
        (cornerReach_closed m hm kind c hc).1 ?_ h
      intro a b hab ha
      have h8 : a < 8 := by
        have := hab.1; simp [Spec.adjacentCorners] at this; omega
      have := (cornerReach_closed m hm kind c hc).2 a h8 ha
      show (cornerReach m kind c).testBit b = true
      rw [← this, Nat.testBit_lor, Bool.or_eq_true]
      exact Or.inr (cornerNb_spec.2 hab)
  unfold Spec.CornersConnected cornersConnectedB
  simp only [List.all_eq_true, List.mem_range, Bool.or_eq_true, Bool.not_eq_true', beq_eq_false_iff_ne]
  constructor
  · intro h c hc d hd
    by_cases h1 : Spec.solid m c = kind
    · by_cases h2 : Spec.solid m d = kind
      · exact Or.inr ((key c hc d).2 (h c hc d hd h1 h2))
      · exact Or.inl (Or.inr h2)
    · exact Or.inl (Or.inl h1)
  · intro h c hc d hd h1 h2
    rcases h c hc d hd with (h' | h') | h'
    · exact absurd h1 h'
    · exact absurd h2 h'
    · exact (key c hc d).1 h'

/-- C25.  For each of the 256 corner patterns, the entry the topology test looks up is true iff the solid
corners are connected along cube edges and so are the empty ones. -/
theorem C25_manifold_table : kIsManifold.length = 256 ∧ ∀ m < 256,
    ∃ b, kIsManifold[dcMask m]? = some b ∧
      (b = true ↔ Spec.CornersConnected m true ∧ Spec.CornersConnected m false) := by
  have h : kIsManifold.length = 256 ∧ ∀ m < 256, kIsManifold[dcMask m]? =
      some (cornersConnectedB m true && cornersConnectedB m false) := by decide +kernel
  refine ⟨h.1, fun m hm => ⟨_, h.2 m hm, ?_⟩⟩
  rw [Bool.and_eq_true, cornersConnected_iff hm, cornersConnected_iff hm]

/-! ### C27 -/

/-- Set number of cell edge `e` in pattern `m` (`kMdcEdgeSetIndex[m][e]`). -/
def mdcSet (m e : Nat) : Int := (kMdcEdgeSetIndex.getD m []).getD e (-2)

/-- Two cell edges are corners of one marching cubes triangle of pattern `m`. -/
def Spec.shareTriangle (m e e' : Nat) : Bool :=
  (mcTriangles m).any fun t => (t.1 == e || t.2.1 == e || t.2.2 == e) && (t.1 == e' || t.2.1 == e' || t.2.2 == e')

/-- Two cell edges belong to one component of the marching cubes surface inside the cell. -/
def Spec.sameComponent (m : Nat) : Nat → Nat → Prop :=
  Relation.ReflTransGen (fun a b => Spec.shareTriangle m a b = true)

/-- The four patterns for which the table joins two components. -/
def Spec.joinedPatterns : List Nat := [126, 189, 219, 231]

/-- Boolean check used for the last part of C27. -/
def mdcConverseB : Bool :=
  (List.range 256).all fun m => decide (m ∈ Spec.joinedPatterns) ||
    (List.range 12).all fun e => !Spec.crosses m e ||
      let S := reachMask (fun a => maskOf (Spec.shareTriangle m a) 12) 12 4 (1 <<< e)
      (List.range 12).all fun e' => !decide (mdcSet m e = mdcSet m e') || S.testBit e'

theorem mdc_converse : mdcConverseB = true := by decide +kernel

theorem shareTriangle_inv {α : Type} (f : Nat → α) {m a b : Nat}
    (h : ∀ t ∈ mcTriangles m, f t.1 = f t.2.1 ∧ f t.1 = f t.2.2) (hab : Spec.shareTriangle m a b = true) :
    f a = f b := by
  unfold Spec.shareTriangle at hab
  obtain ⟨t, ht, hta⟩ := List.any_eq_true.1 hab
  have := h t ht
  simp only [Bool.and_eq_true, Bool.or_eq_true, beq_iff_eq] at hta
  obtain ⟨(h | h) | h, (h' | h') | h'⟩ := hta <;> subst h <;> subst h' <;>
    first | rfl | exact this.1 | exact this.2 | exact this.1.symm | exact this.2.symm
          | exact this.1.symm.trans this.2 | exact this.2.symm.trans this.1

/-- C27.  For each corner pattern: an edge has a set number (`>= 0`) iff it crosses; the numbers are
`0..n-1` without gaps, with `n <= 4`; edges in one marching cubes component have the same number; and, except
for the four joined patterns, only those do. -/
theorem C27_edge_sets : kMdcEdgeSetIndex.length = 256 ∧ ∀ m < 256,
    (kMdcEdgeSetIndex.getD m []).length = 12 ∧
    (∀ e < 12, (0 ≤ mdcSet m e ↔ Spec.crosses m e = true) ∧ -1 ≤ mdcSet m e ∧ mdcSet m e < 4) ∧
    (∀ e < 12, ∀ k : Nat, (k : Int) ≤ mdcSet m e → ∃ e' < 12, mdcSet m e' = k) ∧
    (∀ e < 12, ∀ e' < 12, Spec.crosses m e = true → Spec.sameComponent m e e' → mdcSet m e = mdcSet m e') ∧
    (m ∉ Spec.joinedPatterns → ∀ e < 12, ∀ e' < 12, Spec.crosses m e = true → mdcSet m e = mdcSet m e' →
      Spec.sameComponent m e e') := by
  have h1 : kMdcEdgeSetIndex.length = 256 ∧ ∀ m < 256, (kMdcEdgeSetIndex.getD m []).length = 12 ∧
      (∀ e < 12, (0 ≤ mdcSet m e ↔ Spec.crosses m e = true) ∧ -1 ≤ mdcSet m e ∧ mdcSet m e < 4) ∧
      (∀ e < 12, ∀ k < 4, ((k : Nat) : Int) ≤ mdcSet m e → ∃ e' < 12, mdcSet m e' = k) := by decide +kernel
  have h2 : ∀ m < 256, ∀ t ∈ mcTriangles m, mdcSet m t.1 = mdcSet m t.2.1 ∧ mdcSet m t.1 = mdcSet m t.2.2 := by
    decide +kernel
  have h3 : ∀ m < 256, m ∉ Spec.joinedPatterns → ∀ e < 12, ∀ e' < 12, Spec.crosses m e = true →
      mdcSet m e = mdcSet m e' →
      (reachMask (fun a => maskOf (Spec.shareTriangle m a) 12) 12 4 (1 <<< e)).testBit e' = true := by
    intro m hm hj e he e' he' hc hs
    have h := mdc_converse
    unfold mdcConverseB at h
    simp only [List.all_eq_true, List.mem_range, Bool.or_eq_true, Bool.not_eq_true', decide_eq_true_eq,
      decide_eq_false_iff_not] at h
    rcases h m hm with h | h
    · exact absurd h hj
    · rcases h e he with h | h
      · rw [hc] at h; cases h
      · rcases h e' he' with h | h
        · exact absurd hs h
        · exact h
  refine ⟨h1.1, fun m hm => ⟨(h1.2 m hm).1, (h1.2 m hm).2.1, ?_, ?_, ?_⟩⟩
  · intro e he k hk
    have hk4 : k < 4 := by
      have := ((h1.2 m hm).2.1 e he).2.2; omega
    exact (h1.2 m hm).2.2 e he k hk4 hk
  · intro e _ e' _ _ h
    refine (reach_closed (P := fun x => mdcSet m e = mdcSet m x) rfl ?_ h)
    intro a b hab ha
    rw [ha]; exact shareTriangle_inv (mdcSet m) (h2 m hm) hab
  · intro hj e he e' he' hc hs
    refine reachMask_sound (R := fun a b => Spec.shareTriangle m a b = true) ?_ 12 4 _ ?_ e'
      (h3 m hm hj e he e' he' hc hs)
    · intro a b hab
      rw [testBit_maskOf, Bool.and_eq_true] at hab
      exact hab.2
    · intro d hd
      rw [shiftLeft_testBit hd]

/-- C27: in the four joined patterns the table does join edges of different components. -/
theorem C27_joined : ∀ m ∈ Spec.joinedPatterns, ∃ e < 12, ∃ e' < 12, Spec.crosses m e = true ∧
    Spec.crosses m e' = true ∧ mdcSet m e = mdcSet m e' ∧ ¬ Spec.sameComponent m e e' := by
  have h : ∀ m ∈ Spec.joinedPatterns, ∃ e < 12, ∃ e' < 12, Spec.crosses m e = true ∧
      Spec.crosses m e' = true ∧ mdcSet m e = mdcSet m e' ∧
      let S := reachMask (fun a => maskOf (Spec.shareTriangle m a) 12) 12 4 (1 <<< e)
      S.testBit e = true ∧ S.testBit e' = false ∧
      (∀ t ∈ mcTriangles m, S.testBit t.1 = S.testBit t.2.1 ∧ S.testBit t.1 = S.testBit t.2.2) := by
    decide +kernel
  intro m hm
  obtain ⟨e, he, e', he', h1, h2, h3, h4, h5, h6⟩ := h m hm
  refine ⟨e, he, e', he', h1, h2, h3, fun hs => ?_⟩
  have := reach_closed (P := fun x =>
    (reachMask (fun a => maskOf (Spec.shareTriangle m a) 12) 12 4 (1 <<< e)).testBit x = true) h4 ?_ hs
  · rw [h5] at this; cases this
  · intro a b hab ha
    rw [← shareTriangle_inv _ h6 hab]; exact ha

end Isomesh
