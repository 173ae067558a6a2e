import Verif.Proofs.DmcBuild
import Verif.Props.DcOctree
import Verif.Props.DmcOctree

/-! C53, C61, C63: the octree made by `DMC_Octree::build`. -/

namespace Isomesh
open Spec

set_option linter.unusedSectionVars false
variable {K : Type} [Add K] [_root_.Sub K] [Mul K] [Div K] [Neg K] [Zero K] [One K] [OfNat K 2] [OfScientific K] [NatCast K] [IntCast K]
  [Fabs K] [Elem K] [LinearOrder K] [RoundedLaws K]

noncomputable section
open scoped Classical

variable {R : Type}

theorem dmcTree_height {a : DmcArgs K R} {options : Qef K 4} : ∀ {t : DmcNode K} {c : Cube}, DmcTreeOK a options t c → t.height ≤ c.k := by
  intro t
  induction t with
  | leaf l => intro c _; simp [Oct.height]
  | inner d ch ih =>
    intro c h
    obtain ⟨⟨hk, -⟩, h⟩ := h
    have : ∀ i, (ch i).height ≤ c.k - 1 := fun i => ih i (h i)
    rw [Oct.height]
    have : (Finset.univ.sup fun i => (ch i).height) ≤ c.k - 1 := Finset.sup_le fun i _ => this i
    omega

theorem dmcTree_leaf {a : DmcArgs K R} {options : Qef K 4} : ∀ {t : DmcNode K} {c : Cube}, DmcTreeOK a options t c →
    ∀ A ∈ (locate t c).leaves, ∃ offs ok, SampleOffsets a A.1.k offs ∧ DmcLeafOK a options A.1 offs A.2 ok ∧ LeafReason a A.1 ok := by
  intro t
  induction t with
  | leaf l =>
    intro c h A hA
    simp only [locate, Oct.leaves, List.mem_singleton] at hA
    subst hA
    exact h
  | inner d ch ih =>
    intro c h A hA
    simp only [locate, Oct.leaves, List.mem_flatMap, List.mem_finRange, true_and] at hA
    obtain ⟨i, hA⟩ := hA
    exact ih i (h.2 i) A hA

/-- The arguments of `buildNode` for a call of `build`. -/
def dmcArgs (env : DmcEnv K R) (o : DmcOctree K) (field : ScalarField K) (epsilon : K) (flags : DmcFlags) : DmcArgs K R :=
  ⟨env, o, field, epsilon / (o.globalScale * o.globalScale), flags⟩

/-- C53: for a root size up to `2 ^ 27` and a solver with positive pseudo-inverse tolerance, `build` completes; the tree fits
into the root cube, and each node is a leaf or subdivided for the reasons given by the options, each leaf having the data
of its cell. -/
theorem C53_dmc_build (env : DmcEnv K R) (o : DmcOctree K) (field : ScalarField K) (solver : Qef K 4) (epsilon : K) (flags : DmcFlags)
    (seed : Nat) (hk : o.level ≤ 27) (hp : 0 < solver.pinvTolerance) :
    ∃ q' o', o.build env field solver epsilon flags seed = some (q', o') ∧ o'.level = o.level ∧ o'.globalPos = o.globalPos ∧
      o'.globalScale = o.globalScale ∧ o'.root.height ≤ o.level ∧ SameOptions solver q' ∧
      DmcTreeOK (dmcArgs env o field epsilon flags) solver o'.root (rootCube o.level) := by
  obtain ⟨s', n, h1, h2, h3⟩ := dmcBuildNode_ok (a := dmcArgs env o field epsilon flags) hp o.level (by omega)
    (rootCorner o.level) (solver, env.seed seed) (sameOptions_refl _)
  rw [rootCube_eq] at h3
  refine ⟨s'.1, { o with root := n }, ?_, rfl, rfl, rfl, ?_, h2, h3⟩
  · unfold DmcOctree.build
    unfold dmcArgs at h1
    rw [h1]
  · have := dmcTree_height h3
    rw [rootCube_k] at this
    exact this

theorem eval_qerr {q : Qef ℝ 4} {x : VecN ℝ 4} {e : ℝ} (h : q.eval qef4Rows x = some e) : e = qerr q x := by
  by_cases hu : q.usedRows ≤ qef4Rows
  · rw [eval_eq _ hu] at h
    exact (Option.some.inj h).symm
  · unfold Qef.eval at h
    rw [if_neg hu] at h
    cases h

/-- C53, exact arithmetic: the vertex and value of a cell are accepted exactly if the sum of the squared errors of the linear predictions
at the sample points is within the bound, and a value other than zero is taken only if some vertex in the cell with value zero (the one found first) exceeds the
bound; provided that no rotation of the solver hits its underflow guard. -/
theorem C53_accept {a : DmcArgs ℝ R} {options : Qef ℝ 4} {c : Cube} {offs : List (Vec3 ℝ)} {l : DmcLeaf ℝ} {ok : Bool}
    (h : DmcLeafOK a options c offs l ok) (ht : 0 < a.env.tiny)
    (hclean : ∀ lo hi lo' hi', CleanRun qef4Rows 29 a.env.tiny options.reset
      (samplePlanes a c.lo offs ++ [.solve lo hi, .solve lo' hi'])) :
    (ok = true ↔ fitError a c.lo offs l.vertex l.w ≤ a.epsilon) ∧ (l.w ≠ 0 → ∃ v, c.ClosedR v ∧ a.epsilon < fitError a c.lo offs v 0) := by
  obtain ⟨q1, q2, x2, e2, g1, h2, v2, hcase⟩ := h.solution
  obtain ⟨lo, k⟩ := c
  have g2 := runOps_append _ (.solve (vec4 lo.toReal 0) (vec4 (upperCorner lo k).toReal 0)) g1
    (show QefOp.apply qef4Rows 29 a.env.tiny q1 _ = some q2 by simp [QefOp.apply, h2])
  have f2 := run_fit (a := a) ht (by simp) g2 (cleanRun_prefix _ [.solve (vec4 lo.toReal 0)
    (vec4 (upperCorner lo k).toReal 0)] _ (by rw [List.append_assoc]; exact hclean _ _ _ _)) x2
  obtain ⟨y2, hy2⟩ := solve_clamp h2
  have hw2 : x2 3 = 0 := by rw [hy2]; exact clampV_zero _ _ _
  have hin2 : Cube.ClosedR ⟨lo, k⟩ ⟨x2 0, x2 1, x2 2⟩ := by
    refine box_inside (wl := 0) (wh := 0) fun i hi => ?_
    rw [hy2]
    exact clampV_mem3 _ _ _ i hi
  have e2' := eval_qerr v2
  rcases hcase with ⟨c1, c2, c3⟩ | ⟨c1, q3, e3, h3, v3, hok⟩
  · have h0 : x2 0 = l.vertex.x := by rw [← c3]; rfl
    have h1 : x2 1 = l.vertex.y := by rw [← c3]; rfl
    have h2 : x2 2 = l.vertex.z := by rw [← c3]; rfl
    have h3 : x2 3 = l.w := by rw [← c3]; rfl
    rw [h0, h1, h2, h3] at f2
    refine ⟨?_, fun hne => absurd (h3.symm.trans hw2) hne⟩
    show _ ↔ fitError a lo offs l.vertex l.w ≤ a.epsilon
    rw [← f2, ← e2']
    simp [c1, c2]
  · have g3 := runOps_append _ (.solve (vec4 lo.toReal a.env.lowest) (vec4 (upperCorner lo k).toReal a.env.highest)) g2
      (show QefOp.apply qef4Rows 29 a.env.tiny q2 _ = some q3 by simp [QefOp.apply, h3])
    rw [List.append_assoc] at g3
    have f3 := run_fit (a := a) ht (by simp) g3 (hclean _ _ _ _) (vec4 l.vertex l.w)
    have e3' := eval_qerr v3
    constructor
    · rw [hok, e3', f3]; rfl
    · refine fun _ => ⟨⟨x2 0, x2 1, x2 2⟩, hin2, ?_⟩
      show a.epsilon < fitError a lo offs _ 0
      rw [← hw2, ← f2, ← e2']
      exact c1

/-- C53: the leaves of an octree in a cube tile it: each leaf is part of the cube and every cell of the cube belongs to
exactly one leaf. -/
theorem C53_tiling {t : DmcNode K} {c : Cube} (hh : t.height ≤ c.k) :
    (∀ A ∈ (locate t c).leaves, A.1.Sub c) ∧ ∀ u, c.Has u → ∃ A ∈ (locate t c).leaves, A.1.Has u ∧
      ∀ B ∈ (locate t c).leaves, B.1.Has u → B = A := by
  have hp := placed_locate t c hh
  refine ⟨leaf_sub hp, fun u hu => ?_⟩
  obtain ⟨A, hA, hAu⟩ := leaf_exists hp u hu
  exact ⟨A, hA, hAu, fun B hB hBu => leaf_unique hp B hB A hA u hBu hAu⟩

/-- If nodes at different places have different addresses, the leaves of a built tree have different addresses (as
`C49`, `C50` ask for). -/
theorem C53_addresses {a : DmcArgs K R} {options : Qef K 4} {t : DmcNode K} {c : Cube} (h : DmcTreeOK a options t c)
    (ha : ∀ lo k lo' k', a.env.addr lo k = a.env.addr lo' k' → lo = lo' ∧ k = k') : DistinctAddresses t c := by
  intro A hA B hB he
  obtain ⟨offs, ok, -, hl, -⟩ := dmcTree_leaf h A hA
  obtain ⟨offs', ok', -, hl', -⟩ := dmcTree_leaf h B hB
  rw [hl.addr, hl'.addr] at he
  obtain ⟨h1, h2⟩ := ha _ _ _ _ he
  have hcube : A.1 = B.1 := by
    cases hA' : A.1
    cases hB' : B.1
    rw [hA', hB'] at h1 h2
    simp only at h1 h2
    rw [h1, h2]
  have hp := placed_locate t c (dmcTree_height h)
  have hpos := side_pos A.1
  have hself : A.1.Has A.1.lo := by
    unfold Cube.Has
    omega
  exact leaf_unique hp A hA B hB A.1.lo hself (hcube ▸ hself)

/-! ### C48 for a built tree -/

/-- C48: in a built tree a material is written exactly where the dual vertex is inside. -/
theorem C48_written_iff {a : DmcArgs K R} {options : Qef K 4} {t : DmcNode K} {c : Cube} (h : DmcTreeOK a options t c) :
    ∀ A ∈ (locate t c).leaves, (A.2.material ≠ none ↔ A.2.w ≤ 0) ∧
      (A.2.w ≤ 0 → A.2.material = some (a.field.material (a.oct.localToGlobal A.2.vertex) (A.2.w * a.oct.globalScale))) := by
  intro A hA
  obtain ⟨offs, ok, -, hl, -⟩ := dmcTree_leaf h A hA
  refine ⟨⟨fun hne => ?_, fun hw => ?_⟩, hl.written⟩
  · by_contra hw
    exact hne (hl.unwritten (not_le.1 hw))
  · rw [hl.written hw]
    simp

/-- C48: in a built tree the materials read while contouring are all written exactly if, at each dual edge with a sign
change, the lower leaf is inside and the field gives it a material other than `Empty`. -/
theorem C48_built_iff {a : DmcArgs K R} {options : Qef K 4} {o : DmcOctree K} {c : Cube} {normalize : Vec3 K → Vec3 K}
    (h : DmcTreeOK a options o.root c) (ha : DistinctAddresses o.root c) {all : List (IVec3 × (Fin 8 → DmcCell K))}
    (hall : ∀ p q, MinimalVertex o.root c p q → (p, q) ∈ all) (hlen : 12 * all.length < 2 ^ 32) :
    (∃ r, o.contour normalize (fun _ => none) = some r) ↔
      ∀ A B, DualEdge o.root c A B → SignChange A.2 B.2 → A.2.w ≤ 0 ∧
        a.field.material (a.oct.localToGlobal A.2.vertex) (A.2.w * a.oct.globalScale) ≠ .Empty := by
  rw [C48_strict_iff (dmcTree_height h) ha hall hlen]
  refine forall_congr' fun A => forall_congr' fun B => imp_congr_right fun hd => imp_congr_right fun hs => ?_
  obtain ⟨hA, hB, -⟩ := dualEdge_upNext hd
  obtain ⟨a1, a2⟩ := C48_written_iff h A hA
  obtain ⟨b1, -⟩ := C48_written_iff h B hB
  constructor
  · rintro ⟨w1, w2⟩
    have hw := a1.1 w1
    refine ⟨hw, fun he => ?_⟩
    have hBw := b1.1 (w2 (by rw [a2 hw, he]))
    rcases hs with ⟨-, h'⟩ | ⟨h', -⟩
    · exact absurd hBw (not_le.2 h')
    · exact absurd hw (not_le.2 h')
  · rintro ⟨hw, hne⟩
    refine ⟨a1.2 hw, fun he => ?_⟩
    rw [a2 hw, Option.some.injEq] at he
    exact absurd he hne

/-- C48, the negation of the property for a built tree: if the dual vertices of all leaves at the boundary of the root cube
are outside and that of some leaf is inside, contouring reads uninitialised memory. -/
theorem C48_built_reads_uninitialised {a : DmcArgs K R} {options : Qef K 4} {o : DmcOctree K} {c : Cube} {normalize : Vec3 K → Vec3 K}
    (h : DmcTreeOK a options o.root c) (ha : DistinctAddresses o.root c)
    (hbd : ∀ A ∈ (locate o.root c).leaves, A.1.TouchesBoundary c → 0 < A.2.w)
    (hin : ∃ A ∈ (locate o.root c).leaves, A.2.w ≤ 0) : o.contour normalize (fun _ => none) = none :=
  C48_reads_uninitialised (dmcTree_height h) ha (fun A hA => (C48_written_iff h A hA).1.1) hbd hin

/-! ### C61 -/

/-- C61: the dual vertex of a leaf lies in its cell. -/
theorem C61_vertex_in_cell {a : DmcArgs K R} {options : Qef K 4} {t : DmcNode K} {c : Cube} (h : DmcTreeOK a options t c) :
    ∀ A ∈ (locate t c).leaves, A.1.ClosedR A.2.vertex := by
  intro A hA
  obtain ⟨offs, ok, -, hl, -⟩ := dmcTree_leaf h A hA
  exact hl.inside

/-- C61: where the vertex and the value of a leaf come from. -/
theorem C61_value {a : DmcArgs K R} {options : Qef K 4} {t : DmcNode K} {c : Cube} (h : DmcTreeOK a options t c) :
    ∀ A ∈ (locate t c).leaves, ∃ offs ok, SampleOffsets a A.1.k offs ∧ DmcSolution a options A.1 offs A.2 ok := by
  intro A hA
  obtain ⟨offs, ok, h1, hl, -⟩ := dmcTree_leaf h A hA
  exact ⟨offs, ok, h1, hl.solution⟩

theorem closedR_between {c : Cube} {u v : Vec3 ℝ} (hu : c.ClosedR u) (hv : c.ClosedR v) {s : ℝ} (h0 : 0 ≤ s) (h1 : s ≤ 1) :
    c.ClosedR (between s u v) := by
  obtain ⟨⟨a1, a2⟩, ⟨a3, a4⟩, ⟨a5, a6⟩⟩ := hu
  obtain ⟨⟨b1, b2⟩, ⟨b3, b4⟩, ⟨b5, b6⟩⟩ := hv
  have key : ∀ l h x y : ℝ, l ≤ x → x ≤ h → l ≤ y → y ≤ h → l ≤ (1 - s) * x + s * y ∧ (1 - s) * x + s * y ≤ h := by
    intro l h x y h1' h2' h3' h4'
    constructor <;> nlinarith
  exact ⟨key _ _ _ _ a1 a2 b1 b2, key _ _ _ _ a3 a4 b3 b4, key _ _ _ _ a5 a6 b5 b6⟩

theorem closedR_sub {b c : Cube} (h : b.Sub c) {v : Vec3 ℝ} (hv : b.ClosedR v) : c.ClosedR v := by
  have key : ∀ {bl cl : Int} {x : ℝ}, cl ≤ bl → bl + b.side ≤ cl + c.side → (bl : ℝ) ≤ x ∧ x ≤ bl + 2 ^ b.k →
      (cl : ℝ) ≤ x ∧ x ≤ cl + 2 ^ c.k := by
    intro bl cl x h1 h2 hx
    have h1' : (cl : ℝ) ≤ bl := by exact_mod_cast h1
    have h2' : (bl : ℝ) + 2 ^ b.k ≤ cl + 2 ^ c.k := by
      have : ((bl + b.side : Int) : ℝ) ≤ ((cl + c.side : Int) : ℝ) := by exact_mod_cast h2
      simpa [Cube.side] using this
    constructor <;> linarith [hx.1, hx.2]
  unfold Cube.ClosedR at hv ⊢
  push_cast at hv ⊢
  exact ⟨key h.1.1 h.1.2 hv.1, key h.2.1.1 h.2.1.2 hv.2.1, key h.2.2.1 h.2.2.2 hv.2.2⟩

/-- C61: the vertices of the mesh lie in the root cube (in local coordinates). -/
theorem C61_mesh_in_root {a : DmcArgs ℝ R} {options : Qef ℝ 4} {o : DmcOctree ℝ} {c : Cube} {normalize : Vec3 ℝ → Vec3 ℝ}
    {junk : Nat → Option Material} (h : DmcTreeOK a options o.root c) (ha : DistinctAddresses o.root c) {r : PlacedMesh ℝ}
    (hr : o.contour normalize junk = some r) : ∀ V ∈ r.mesh.vertices, c.ClosedR V.position := by
  intro V hV
  obtain ⟨A, B, hd, hs, s, hz, hp, -, -⟩ := C49_linear_zero (dmcTree_height h) ha hr V hV
  obtain ⟨⟨h0, h1⟩, -⟩ := (hz s).2 rfl
  obtain ⟨hA, hB, -⟩ := dualEdge_upNext hd
  have hpl := placed_locate o.root c (dmcTree_height h)
  rw [hp]
  exact closedR_between (closedR_sub (leaf_sub hpl A hA) (C61_vertex_in_cell h A hA))
    (closedR_sub (leaf_sub hpl B hB) (C61_vertex_in_cell h B hB)) h0 h1

/-! ### C63 -/

/-- C63: without the simple policy and early stop, a leaf is a single cell or its size is less than an eighth of the root
size and its error is accepted. -/
theorem C63_leaf_size {a : DmcArgs K R} {options : Qef K 4} {t : DmcNode K} {c : Cube} (h : DmcTreeOK a options t c)
    (h1 : a.flags.simpleSplit = false) (h2 : a.flags.earlyStop = false) :
    ∀ A ∈ (locate t c).leaves, A.1.k = 0 ∨ 8 * 2 ^ A.1.k < 2 ^ a.oct.level := by
  intro A hA
  obtain ⟨offs, ok, -, -, hr⟩ := dmcTree_leaf h A hA
  rcases hr with hr | ⟨hr, -⟩ | ⟨hr, -⟩ | ⟨-, hr, -⟩
  · exact Or.inl hr
  · rw [h2] at hr; cases hr
  · rw [h1] at hr; cases hr
  · refine Or.inr ?_
    rw [show (8 : Nat) = 2 ^ 3 by norm_num, ← pow_add]
    exact Nat.pow_lt_pow_right (by norm_num) (by omega)

theorem dmcExceeds_iff (eps : ℝ) (ts : List ℝ) (hne : ts ≠ []) (hpos : ∀ t ∈ ts, 0 ≤ t) : ∀ e : ℝ,
    dmcExceeds eps e ts = true ↔ eps < e + ts.sum := by
  induction ts with
  | nil => exact absurd rfl hne
  | cons t ts ih =>
    intro e
    rw [dmcExceeds, List.sum_cons]
    have hsum : 0 ≤ ts.sum := List.sum_nonneg fun x hx => hpos x (List.mem_cons_of_mem _ hx)
    by_cases h : e + t > eps
    · rw [if_pos h]
      simp only [true_iff]
      linarith
    · rw [if_neg h]
      by_cases hts : ts = []
      · subst hts
        simp only [dmcExceeds, List.sum_nil, Bool.false_eq_true, false_iff]
        intro h'; linarith
      · rw [ih hts (fun x hx => hpos x (List.mem_cons_of_mem _ hx)), add_assoc]

theorem dmcTerm_nonneg (a : DmcArgs ℝ R) (p : Vec3 ℝ) (x : ℝ) : 0 ≤ dmcTerm a p x := by
  unfold dmcTerm
  exact div_nonneg (abs_nonneg _) (le_trans zero_le_one (le_max_left _ _))

theorem dmcCorner_eq (a : DmcArgs ℝ R) (lo : IVec3) (k i : Nat) (x y z : ℤ) (hi : kCellCornerOffset.getD i ⟨0, 0, 0⟩ = ⟨x, y, z⟩) :
    dmcCorner a lo k i = cellPoint a.oct ⟨lo, k⟩ ⟨x, y, z⟩ := by
  unfold dmcCorner cellPoint DmcOctree.localToGlobal Vec3.add IVec3.toReal
  rw [hi]
  ext <;> simp only [sizeK_real] <;> ring

theorem cellPoint_add (o : DmcOctree ℝ) (lo : IVec3) (k : Nat) (u v : Vec3 ℝ) :
    (cellPoint o ⟨lo, k⟩ u).add ⟨2 ^ k * o.globalScale * v.x, 2 ^ k * o.globalScale * v.y, 2 ^ k * o.globalScale * v.z⟩ =
      cellPoint o ⟨lo, k⟩ ⟨u.x + v.x, u.y + v.y, u.z + v.z⟩ := by
  unfold cellPoint DmcOctree.localToGlobal Vec3.add
  ext <;> simp only <;> ring

theorem trilinear_eq (o : DmcOctree ℝ) (f : Vec3 ℝ → ℝ) (c : Cube) (x y z : ℝ) : trilinear o f c ⟨x, y, z⟩ =
    (1 - x) * (1 - y) * (1 - z) * f (cellPoint o c ⟨0, 0, 0⟩) + (1 - x) * (1 - y) * z * f (cellPoint o c ⟨0, 0, 1⟩) +
    (1 - x) * y * (1 - z) * f (cellPoint o c ⟨0, 1, 0⟩) + (1 - x) * y * z * f (cellPoint o c ⟨0, 1, 1⟩) +
    x * (1 - y) * (1 - z) * f (cellPoint o c ⟨1, 0, 0⟩) + x * (1 - y) * z * f (cellPoint o c ⟨1, 0, 1⟩) +
    x * y * (1 - z) * f (cellPoint o c ⟨1, 1, 0⟩) + x * y * z * f (cellPoint o c ⟨1, 1, 1⟩) := by
  unfold trilinear
  simp [Fin.sum_univ_two]
  ring

/-- The term for the point `u` of the cell, reached from the corner `b` by a half step `h` times `d`. -/
theorem term_eq (a : DmcArgs ℝ R) (lo : IVec3) (k : Nat) (i : Nat) (b : Vec3 ℝ) (x y z p : ℝ) (u : Vec3 ℝ)
    (hc : dmcCorner a lo k i = cellPoint a.oct ⟨lo, k⟩ b) (hx : x = 2 ^ k * a.oct.globalScale * (u.x - b.x))
    (hy : y = 2 ^ k * a.oct.globalScale * (u.y - b.y)) (hz : z = 2 ^ k * a.oct.globalScale * (u.z - b.z))
    (hp : p = trilinear a.oct a.field.value ⟨lo, k⟩ u) :
    dmcTerm a ((dmcCorner a lo k i).add ⟨x, y, z⟩) p = interpolationError a.oct a.field ⟨lo, k⟩ u := by
  have : (dmcCorner a lo k i).add ⟨x, y, z⟩ = cellPoint a.oct ⟨lo, k⟩ u := by
    have h := cellPoint_add a.oct lo k b ⟨u.x - b.x, u.y - b.y, u.z - b.z⟩
    rw [hc, hx, hy, hz, h]
    simp
  unfold dmcTerm interpolationError
  rw [this, hp, fabs_abs]

theorem midpoint_terms (a : DmcArgs ℝ R) (lo : IVec3) (k : Nat) :
    (dmcEdgeTerms a lo k ++ dmcFaceTerms a lo k ++ [dmcCellTerm a lo k]).sum = midpointError a.oct a.field ⟨lo, k⟩ := by
  have c0 := dmcCorner_eq a lo k 0 0 0 0 rfl
  have c1 := dmcCorner_eq a lo k 1 0 0 1 rfl
  have c2 := dmcCorner_eq a lo k 2 1 0 0 rfl
  have c3 := dmcCorner_eq a lo k 3 1 0 1 rfl
  have c4 := dmcCorner_eq a lo k 4 0 1 0 rfl
  have c5 := dmcCorner_eq a lo k 5 0 1 1 rfl
  have c6 := dmcCorner_eq a lo k 6 1 1 0 rfl
  have c7 := dmcCorner_eq a lo k 7 1 1 1 rfl
  simp only [Int.cast_zero, Int.cast_one] at c0 c1 c2 c3 c4 c5 c6 c7
  simp only [dmcEdgeTerms, dmcFaceTerms, dmcCellTerm, sizeK_real, List.flatMap_cons, List.flatMap_nil, List.map_cons, List.map_nil,
    List.cons_append, List.nil_append, List.append_nil, List.sum_cons, List.sum_nil, Nat.zero_add, Nat.reduceAdd,
    show List.range 8 = [0, 1, 2, 3, 4, 5, 6, 7] from rfl, List.foldl_cons, List.foldl_nil]
  have T := fun (i : Nat) (b : Vec3 ℝ) (x y z p : ℝ) (u : Vec3 ℝ) => term_eq a lo k i b x y z p u
  have V : ∀ i, dmcValue a lo k i = a.field.value (dmcCorner a lo k i) := fun _ => rfl
  have v0 := V 0; have v1 := V 1; have v2 := V 2; have v3 := V 3
  have v4 := V 4; have v5 := V 5; have v6 := V 6; have v7 := V 7
  rw [c0] at v0; rw [c1] at v1; rw [c2] at v2; rw [c3] at v3; rw [c4] at v4; rw [c5] at v5; rw [c6] at v6; rw [c7] at v7
  -- edges along x
  rw [T 0 _ _ _ _ _ ⟨1/2, 0, 0⟩ c0 (by ring) (by ring) (by ring) (by rw [trilinear_eq, v0, v2]; ring)]
  rw [T 1 _ _ _ _ _ ⟨1/2, 0, 1⟩ c1 (by ring) (by ring) (by ring) (by rw [trilinear_eq, v1, v3]; ring)]
  rw [T 4 _ _ _ _ _ ⟨1/2, 1, 0⟩ c4 (by ring) (by ring) (by ring) (by rw [trilinear_eq, v4, v6]; ring)]
  rw [T 5 _ _ _ _ _ ⟨1/2, 1, 1⟩ c5 (by ring) (by ring) (by ring) (by rw [trilinear_eq, v5, v7]; ring)]
  -- edges along y
  rw [T 0 _ _ _ _ _ ⟨0, 1/2, 0⟩ c0 (by ring) (by ring) (by ring) (by rw [trilinear_eq, v0, v4]; ring)]
  rw [T 1 _ _ _ _ _ ⟨0, 1/2, 1⟩ c1 (by ring) (by ring) (by ring) (by rw [trilinear_eq, v1, v5]; ring)]
  rw [T 2 _ _ _ _ _ ⟨1, 1/2, 0⟩ c2 (by ring) (by ring) (by ring) (by rw [trilinear_eq, v2, v6]; ring)]
  rw [T 3 _ _ _ _ _ ⟨1, 1/2, 1⟩ c3 (by ring) (by ring) (by ring) (by rw [trilinear_eq, v3, v7]; ring)]
  -- edges along z
  rw [T 0 _ _ _ _ _ ⟨0, 0, 1/2⟩ c0 (by ring) (by ring) (by ring) (by rw [trilinear_eq, v0, v1]; ring)]
  rw [T 2 _ _ _ _ _ ⟨1, 0, 1/2⟩ c2 (by ring) (by ring) (by ring) (by rw [trilinear_eq, v2, v3]; ring)]
  rw [T 4 _ _ _ _ _ ⟨0, 1, 1/2⟩ c4 (by ring) (by ring) (by ring) (by rw [trilinear_eq, v4, v5]; ring)]
  rw [T 6 _ _ _ _ _ ⟨1, 1, 1/2⟩ c6 (by ring) (by ring) (by ring) (by rw [trilinear_eq, v6, v7]; ring)]
  -- faces
  rw [T 0 _ _ _ _ _ ⟨1/2, 1/2, 0⟩ c0 (by ring) (by ring) (by ring) (by rw [trilinear_eq, v0, v2, v4, v6]; ring)]
  rw [T 1 _ _ _ _ _ ⟨1/2, 1/2, 1⟩ c1 (by ring) (by ring) (by ring) (by rw [trilinear_eq, v1, v3, v5, v7]; ring)]
  rw [T 0 _ _ _ _ _ ⟨1/2, 0, 1/2⟩ c0 (by ring) (by ring) (by ring) (by rw [trilinear_eq, v0, v1, v2, v3]; ring)]
  rw [T 4 _ _ _ _ _ ⟨1/2, 1, 1/2⟩ c4 (by ring) (by ring) (by ring) (by rw [trilinear_eq, v4, v5, v6, v7]; ring)]
  rw [T 0 _ _ _ _ _ ⟨0, 1/2, 1/2⟩ c0 (by ring) (by ring) (by ring) (by rw [trilinear_eq, v0, v1, v4, v5]; ring)]
  rw [T 2 _ _ _ _ _ ⟨1, 1/2, 1/2⟩ c2 (by ring) (by ring) (by ring) (by rw [trilinear_eq, v2, v3, v6, v7]; ring)]
  rw [T 0 _ _ _ _ _ ⟨1/2, 1/2, 1/2⟩ c0 (by ring) (by ring) (by ring)
    (by rw [trilinear_eq, v0, v1, v2, v3, v4, v5, v6, v7]; ring)]
  unfold midpointError
  generalize hF : interpolationError a.oct a.field ⟨lo, k⟩ = F
  have e0 : ((0 : ℕ) : ℝ) / 2 = 0 := by norm_num
  have e1 : ((1 : ℕ) : ℝ) / 2 = 1 / 2 := by norm_num
  have e2 : ((2 : ℕ) : ℝ) / 2 = 1 := by norm_num
  simp only [Fin.sum_univ_three, Fin.val_zero, Fin.val_one, Fin.val_two, e0, e1, e2]
  simp only [Fin.reduceEq, true_or, or_true, or_false, if_true, if_false]
  ring

/-- C63: the simple policy asks for subdivision exactly if the sum over the midpoints of the errors of the trilinear
interpolation is greater than the (scaled) tolerance. -/
theorem C63_should_split (a : DmcArgs ℝ R) (lo : IVec3) (k : Nat) :
    dmcShouldSplit a lo k = true ↔ a.epsilon < midpointError a.oct a.field ⟨lo, k⟩ := by
  unfold dmcShouldSplit
  rw [dmcExceeds_iff _ _ (by simp), midpoint_terms, zero_add]
  intro t ht
  simp only [dmcEdgeTerms, dmcFaceTerms, dmcCellTerm, List.mem_append, List.mem_flatMap, List.mem_map,
    List.mem_singleton] at ht
  rcases ht with (⟨d, -, i, -, rfl⟩ | ⟨d, -, i, -, rfl⟩) | rfl <;> exact dmcTerm_nonneg _ _ _

/-- C63: for a field that changes by at most the distance, the early stop criterion holds only for cells in which the field
has one sign: the cell is entirely outside or entirely inside. -/
theorem C63_early_stop (a : DmcArgs ℝ R) (lo : IVec3) (k : Nat) (hs : 0 ≤ a.oct.globalScale) (hL : OneLipschitz a.field.value)
    (h : dmcShouldStop a lo k = true) :
    (∀ v, (⟨lo, k⟩ : Cube).ClosedR v → 0 < a.field.value (a.oct.localToGlobal v)) ∨
      (∀ v, (⟨lo, k⟩ : Cube).ClosedR v → a.field.value (a.oct.localToGlobal v) < 0) := by
  have c0 := dmcCorner_eq a lo k 0 0 0 0 rfl
  unfold dmcShouldStop at h
  rw [List.all_eq_true] at h
  have h0 := h 0 (by simp)
  rw [Bool.not_eq_true'] at h0
  have h0 := of_decide_eq_false h0
  rw [not_le, dmcValue, c0, fabs_abs, sizeK_real, elem_sqrt, Nat.cast_ofNat] at h0
  set P := cellPoint a.oct ⟨lo, k⟩ ⟨(0 : ℤ), (0 : ℤ), (0 : ℤ)⟩ with hP
  have key : ∀ v, (⟨lo, k⟩ : Cube).ClosedR v →
      |a.field.value (a.oct.localToGlobal v) - a.field.value P| ≤ 2 ^ k * a.oct.globalScale * Real.sqrt 3 := by
    intro v ⟨⟨a1, a2⟩, ⟨a3, a4⟩, ⟨a5, a6⟩⟩
    refine (hL _ _).trans ?_
    have hk : (0 : ℝ) ≤ 2 ^ k * a.oct.globalScale := by positivity
    have hsq : 2 ^ k * a.oct.globalScale * Real.sqrt 3 = Real.sqrt ((2 ^ k * a.oct.globalScale) ^ 2 * 3) := by
      rw [Real.sqrt_mul (by positivity), Real.sqrt_sq hk]
    rw [hsq]
    refine Real.sqrt_le_sqrt ?_
    have one : ∀ l x : ℝ, l ≤ x → x ≤ l + 2 ^ k → ∀ g : ℝ,
        (x * a.oct.globalScale + g - ((l + 2 ^ k * ((0 : ℤ) : ℝ)) * a.oct.globalScale + g)) ^ 2 ≤ (2 ^ k * a.oct.globalScale) ^ 2 := by
      intro l x h1 h2 g
      have e : x * a.oct.globalScale + g - ((l + 2 ^ k * ((0 : ℤ) : ℝ)) * a.oct.globalScale + g) = (x - l) * a.oct.globalScale := by
        push_cast; ring
      rw [e]
      refine pow_le_pow_left₀ (mul_nonneg (by linarith) hs) (mul_le_mul_of_nonneg_right (by linarith) hs) 2
    push_cast at a2 a4 a6
    have q1 := one _ _ a1 a2 a.oct.globalPos.x
    have q2 := one _ _ a3 a4 a.oct.globalPos.y
    have q3 := one _ _ a5 a6 a.oct.globalPos.z
    rw [hP]
    unfold cellPoint DmcOctree.localToGlobal
    simp only
    linarith
  rcases lt_or_ge (a.field.value P) 0 with hn | hn
  · right
    intro v hv
    rw [abs_of_neg hn] at h0
    have := (abs_le.1 (key v hv)).2
    linarith
  · left
    intro v hv
    rw [abs_of_nonneg hn] at h0
    have := (abs_le.1 (key v hv)).1
    linarith

end
end Isomesh
