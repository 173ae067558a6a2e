import Verif.Spec.NaN
import Verif.Props.MarchingCubes
import Verif.Props.FillCrash
import Verif.Props.Locality

/-! C85: values that are not numbers. -/

set_option linter.unusedSectionVars false

namespace Isomesh
open Spec

section
variable {K : Type} [Add K] [Sub K] [Mul K] [Div K] [Zero K] [IntCast K] [LE K] [LT K] [DecidableLE K] [DecidableLT K]

/-- C85 (structure).  `fill` always succeeds and leaves a material at every grid point and sorted records of different edges of
the grid, whatever values the field, its gradient and the zero finder return (NaN or infinities included). -/
theorem C85_stored {g : Grid K} (hg : g.Reachable) (f : ScalarField K) (sv : ZeroFinder K) :
    ∃ g', g.fill f sv = some g' ∧ Stored g' := by
  obtain ⟨g', h, ⟨hs, hh, hp, ht⟩, hmat⟩ := C73_fill_materials hg f sv
  refine ⟨g', h, (Grid.Reachable.fill hg h).wf, ?_, ?_, ?_, ?_⟩
  · intro p hp
    exact ⟨_, hmat p (by unfold Grid.maxCoord at hp ⊢; rwa [hh] at hp)⟩
  · intro D e he
    obtain ⟨p, h1, h2, rfl⟩ := ((C73_fill_edges hg h D).1 e).1 he
    have : g'.maxCoord = g.maxCoord := hh
    rw [this, sampledRecord_lesser]; exact h1
  · intro D e he
    obtain ⟨p, h1, h2, rfl⟩ := ((C73_fill_edges hg h D).1 e).1 he
    rfl
  · intro D
    obtain ⟨g'', e, _, _, _, _, _, _, h7⟩ := fillR_spec hg.wf f sv
    rw [h] at e; cases e
    rw [h7 D]
    exact allEdgesR_sorted g f sv D

/-- The corners of a cube are connected by its edges. -/
theorem cube_connected : ∀ m < 256, m ≠ 0 → m ≠ 255 → ∃ i < 12, Spec.crosses m i = true := by decide +kernel

theorem cube_const (x : Nat → Bool) (hx : ∀ i < 12, x (edgeCorner i 0) = x (edgeCorner i 1)) {a b : Nat} (ha : a < 8)
    (hb : b < 8) : x a = x b := by
  by_contra hne
  have hm : ∀ c < 8, (maskOf x 8).testBit c = x c := fun c hc => by rw [testBit_maskOf]; simp [hc]
  obtain ⟨i, hi, hc⟩ := cube_connected (maskOf x 8) (maskOf_lt x 8)
    (by intro h0
        apply hne
        rw [← hm a ha, ← hm b hb, h0]; simp)
    (by intro h0
        apply hne
        have : ∀ c < 8, Nat.testBit 255 c = true := by decide
        rw [← hm a ha, ← hm b hb, h0, this a ha, this b hb])
  unfold Spec.crosses solid at hc
  rw [hm _ (edgeCorner_lt i 0 hi (by omega)), hm _ (edgeCorner_lt i 1 hi (by omega)), hx i hi] at hc
  simp at hc

theorem corner_of_mem {P v : IVec3} (hv : v ∈ cellVertices P) :
    ∃ c < 8, v = shift P (cornerPos c).x (cornerPos c).y (cornerPos c).z := by
  obtain ⟨x, y, z⟩ := P
  simp only [cellVertices, List.mem_cons, List.not_mem_nil, or_false] at hv
  rcases hv with rfl | rfl | rfl | rfl | rfl | rfl | rfl | rfl
  · exact ⟨0, by omega, by simp [cornerPos, shift]⟩
  · exact ⟨1, by omega, by simp [cornerPos, shift]⟩
  · exact ⟨2, by omega, by simp [cornerPos, shift]⟩
  · exact ⟨3, by omega, by simp [cornerPos, shift]⟩
  · exact ⟨4, by omega, by simp [cornerPos, shift]⟩
  · exact ⟨5, by omega, by simp [cornerPos, shift]⟩
  · exact ⟨6, by omega, by simp [cornerPos, shift]⟩
  · exact ⟨7, by omega, by simp [cornerPos, shift]⟩

/-- C85 (exact condition).  After any history followed by `fill`, marching cubes violates its assertion (in a release build: reads
uninitialised vertex numbers) exactly if some cell of the grid has a corner at which the field returned NaN together with a
material, and another corner at which it returned a non-positive value.  Nothing is assumed of arithmetic and comparisons except
that no value is both positive and non-positive. -/
theorem C85_nan_iff {g g' : Grid K} (hg : g.Reachable) {f : ScalarField K} {sv : ZeroFinder K} (hf : ProperField f)
    (hex : ∀ v : K, v > 0 → ¬ v ≤ 0) (h : g.fill f sv = some g') (nrm : Vec3 K → Vec3 K) :
    let sample := samplePos g.globalPos g.step g.maxCoord
    marchingCubes nrm g' = none ↔ ∃ P, CellIn g.maxCoord P ∧
      (∃ v ∈ cellVertices P, BadPoint f (sample v)) ∧ ∃ w ∈ cellVertices P, f.value (sample w) ≤ 0 := by
  intro sample
  obtain ⟨g'', e, hS⟩ := C85_stored hg f sv
  rw [h] at e; cases e
  obtain ⟨g'', e, ⟨hs, hh, hp, ht⟩, hmat⟩ := C73_fill_materials hg f sv
  rw [h] at e; cases e
  have hmax : g'.maxCoord = g.maxCoord := hh
  -- the sign and the solid flag of a grid point
  let s : IVec3 → Bool := fun p => decide (f.value (sample p) ≤ 0)
  have hsolid : ∀ p, InCube g.maxCoord p → (solidAt g' p = true ↔ s p = true ∨ BadPoint f (sample p)) := by
    intro p hp
    unfold solidAt
    rw [hmat p hp]
    simp only [s, decide_eq_true_eq, BadPoint, IsNaN]
    unfold vertexMaterial
    by_cases hv : f.value (sample p) > 0
    · rw [if_pos hv]; simp [hv, hex _ hv]
    · rw [if_neg hv]
      by_cases hl : f.value (sample p) ≤ 0
      · simpa [hl] using hf _ hl
      · simp only [hl, hv, false_or, not_false_eq_true, true_and]; rfl
  -- which slots of a cell have vertices
  have hvid : ∀ P, CellIn g.maxCoord P → ∀ i < 12, (vid g' P i).isSome =
      (s (shift P (cornerPos (edgeCorner i 0)).x (cornerPos (edgeCorner i 0)).y (cornerPos (edgeCorner i 0)).z) !=
       s (shift P (cornerPos (edgeCorner i 1)).x (cornerPos (edgeCorner i 1)).y (cornerPos (edgeCorner i 1)).z)) := by
    intro P hP i hi
    obtain ⟨h0, h1⟩ := slotEdge_ends P i hi
    rw [← h1, ← h0, Bool.eq_iff_iff]
    have hin : ∀ v ∈ edgeVertices (slotEdge P i).axis (slotEdge P i).at_, InCube g.maxCoord v := by
      rw [edgeVertices_iff, h1, h0]
      exact ⟨hP _ (corner_mem P (edgeCorner_lt i 0 hi (by omega))), hP _ (corner_mem P (edgeCorner_lt i 1 hi (by omega)))⟩
    have e1 : (vid g' P i).isSome ↔ ∃ e ∈ edgeList g', LEdge.ofGridEdge e = slotEdge P i := by
      unfold vid
      constructor
      · intro hs
        obtain ⟨v, hv⟩ := Option.isSome_iff_exists.1 hs
        obtain ⟨e, he, hle⟩ := (Stored.edgeIdx_eq_some hS).1 hv
        exact ⟨e, List.mem_of_getElem? he, hle⟩
      · rintro ⟨e, he, hle⟩
        obtain ⟨v, hv⟩ := List.mem_iff_getElem?.1 he
        rw [(Stored.edgeIdx_eq_some hS).2 ⟨e, hv, hle⟩]; rfl
    rw [e1]
    have e2 : (∃ e ∈ edgeList g', LEdge.ofGridEdge e = slotEdge P i) ↔ Crosses f sample (slotEdge P i).axis (slotEdge P i).at_ := by
      constructor
      · rintro ⟨e, he, hle⟩
        rw [Stored.mem_edgeList hS] at he
        obtain ⟨p, h1, h2, h3⟩ := ((C73_fill_edges hg h _).1 e).1 he
        have hp : e.lesser = p := by rw [h3, sampledRecord_lesser]
        rw [← hp] at h2
        rw [← hle]
        exact h2
      · intro hc
        have he := ((C73_fill_edges hg h _).1 _).2 ⟨_, hin, hc, rfl⟩
        refine ⟨_, (Stored.mem_edgeList hS).2 he, rfl⟩
    rw [e2]
    unfold Crosses
    simp only [s, bne_iff_ne, ne_eq, decide_eq_decide]
  rw [Stored.mc_none_iff hS]
  have corner_in : ∀ P, CellIn g.maxCoord P → ∀ c < 8, InCube g.maxCoord (shift P (cornerPos c).x (cornerPos c).y (cornerPos c).z) :=
    fun P hP c hc => hP _ (corner_mem P hc)
  have hcross : ∀ P i, i < 12 → Spec.crosses (cellMask g' P) i =
      (solidAt g' (shift P (cornerPos (edgeCorner i 0)).x (cornerPos (edgeCorner i 0)).y (cornerPos (edgeCorner i 0)).z) !=
       solidAt g' (shift P (cornerPos (edgeCorner i 1)).x (cornerPos (edgeCorner i 1)).y (cornerPos (edgeCorner i 1)).z)) := by
    intro P i hi
    unfold Spec.crosses
    rw [solid_cellMask g' P (edgeCorner_lt i 0 hi (by omega)), solid_cellMask g' P (edgeCorner_lt i 1 hi (by omega))]
  have agree : ∀ p, InCube g.maxCoord p → ¬ BadPoint f (sample p) → solidAt g' p = s p := by
    intro p hp hb
    rw [Bool.eq_iff_iff, hsolid p hp]; simp [hb]
  constructor
  · rintro ⟨P, hPm, i, hi, hne⟩
    obtain ⟨hP, j, hj, hjs⟩ := (Stored.mem_mcCells hS).1 hPm
    rw [hmax] at hP
    refine ⟨P, hP, ?_, ?_⟩
    · by_contra hb
      push Not at hb
      have l0 := edgeCorner_lt i 0 hi (by omega)
      have l1 := edgeCorner_lt i 1 hi (by omega)
      apply hne
      rw [hvid P hP i hi, hcross P i hi, agree _ (corner_in P hP _ l0) (hb _ (corner_mem P l0)),
        agree _ (corner_in P hP _ l1) (hb _ (corner_mem P l1))]
    · rw [hvid P hP j hj] at hjs
      by_contra hb
      push Not at hb
      have k0 := hb _ (corner_mem P (edgeCorner_lt j 0 hj (by omega)))
      have k1 := hb _ (corner_mem P (edgeCorner_lt j 1 hj (by omega)))
      simp only [s, k0, k1] at hjs
      simp at hjs
  · rintro ⟨P, hP, ⟨v, hv, hbad⟩, w, hw, hneg⟩
    obtain ⟨a, ha, rfl⟩ := corner_of_mem hv
    obtain ⟨b, hb, rfl⟩ := corner_of_mem hw
    let C : Nat → IVec3 := fun c => shift P (cornerPos c).x (cornerPos c).y (cornerPos c).z
    have sa : s (C a) = false := by simpa [s, C] using hbad.1.2
    have sb : s (C b) = true := by simpa [s, C] using hneg
    have ta : solidAt g' (C a) = true := (hsolid _ (corner_in P hP a ha)).2 (Or.inr hbad)
    have tb : solidAt g' (C b) = true := (hsolid _ (corner_in P hP b hb)).2 (Or.inl sb)
    refine ⟨P, (Stored.mem_mcCells hS).2 ⟨by rw [hmax]; exact hP, ?_⟩, ?_⟩
    · by_contra hno
      push Not at hno
      have := cube_const (fun c => s (C c)) (fun i hi => by
        have := hno i hi
        rw [hvid P hP i hi] at this
        simpa [C] using this) ha hb
      rw [sa, sb] at this; cases this
    · by_contra hno
      push Not at hno
      have := cube_const (fun c => s (C c) ^^ solidAt g' (C c)) (fun i hi => by
        have := hno i hi
        rw [hvid P hP i hi, hcross P i hi] at this
        change (s (C _) != s (C _)) = (solidAt g' (C _) != solidAt g' (C _)) at this
        revert this
        cases s (C (edgeCorner i 0)) <;> cases s (C (edgeCorner i 1)) <;>
          cases solidAt g' (C (edgeCorner i 0)) <;> cases solidAt g' (C (edgeCorner i 1)) <;> simp) ha hb
      simp only [sa, sb, ta, tb] at this
      simp at this

/-- C85 (meshes).  If the field returns a number at every grid point, marching cubes succeeds on the filled grid, and its triangles
refer to vertices of the mesh and close up inside the grid - even if the gradients and the zero finder return NaN, and whatever
the field returns between the grid points. -/
theorem C85_mesh {g g' : Grid K} (hg : g.Reachable) {f : ScalarField K} {sv : ZeroFinder K} (hf : ProperField f)
    (hcmp : ∀ p, InCube g.maxCoord p → NotNaN (f.value (samplePos g.globalPos g.step g.maxCoord p)))
    (h : g.fill f sv = some g') (nrm : Vec3 K → Vec3 K) :
    ∃ r, marchingCubes nrm g' = some r ∧
      (∀ t ∈ triangles r.mesh.indices,
        t.1 < r.mesh.vertices.length ∧ t.2.1 < r.mesh.vertices.length ∧ t.2.2 < r.mesh.vertices.length ∧
        t.1 ≠ t.2.1 ∧ t.2.1 ≠ t.2.2 ∧ t.1 ≠ t.2.2) ∧
      ∀ a b, (sides (triangles r.mesh.indices)).count (a, b) = (sides (triangles r.mesh.indices)).count (b, a) ∨
        ∃ ea eb, (edgeList g')[a]? = some ea ∧ (edgeList g')[b]? = some eb ∧
          OnCommonBoundaryPlane g.maxCoord (.ofGridEdge ea) (.ofGridEdge eb) := by
  have hF := C85_filled hg hf hcmp h
  obtain ⟨r, hr, -, -, -, -, -, hv, -⟩ := C15_valid hF nrm
  obtain ⟨g'', e, ⟨hs, hh, hp, ht⟩, -⟩ := C73_fill_materials hg f sv
  rw [h] at e; cases e
  have hmax : g'.maxCoord = g.maxCoord := hh
  refine ⟨r, hr, ?_, ?_⟩
  · intro t ht
    obtain ⟨h1, h2, h3, h4, h5, h6, -⟩ := hv t ht
    exact ⟨h1, h2, h3, h4, h5, h6⟩
  · intro a b
    have := (C16_closed hF nrm hr a b).2
    rw [hmax] at this
    exact this

end

/-! ### A number type with NaN -/

/-- Integers and a value that is not a number: arithmetic with it gives it again, comparisons with it fail (as for IEEE NaN). -/
inductive NaNInt
  | num (i : Int)
  | nan
  deriving DecidableEq

namespace NaNInt
def lift (op : Int → Int → Int) : NaNInt → NaNInt → NaNInt
  | num a, num b => num (op a b)
  | _, _ => nan
def cmp (r : Int → Int → Bool) : NaNInt → NaNInt → Bool
  | num a, num b => r a b
  | _, _ => false
instance : Add NaNInt := ⟨lift (· + ·)⟩
instance : Sub NaNInt := ⟨lift (· - ·)⟩
instance : Mul NaNInt := ⟨lift (· * ·)⟩
instance : Div NaNInt := ⟨lift (· / ·)⟩
instance : Zero NaNInt := ⟨num 0⟩
instance : IntCast NaNInt := ⟨num⟩
instance : LE NaNInt := ⟨fun a b => cmp (fun a b => decide (a ≤ b)) a b = true⟩
instance : LT NaNInt := ⟨fun a b => cmp (fun a b => decide (a < b)) a b = true⟩
instance : DecidableLE NaNInt := fun a b => inferInstanceAs (Decidable (cmp (fun a b => decide (a ≤ b)) a b = true))
instance : DecidableLT NaNInt := fun a b => inferInstanceAs (Decidable (cmp (fun a b => decide (a < b)) a b = true))

theorem pos_iff (v : NaNInt) : v > 0 ↔ ∃ i, v = num i ∧ 0 < i := by
  cases v with
  | num i => show decide (0 < i) = true ↔ _; simp
  | nan => show false = true ↔ _; simp

theorem nonpos_iff (v : NaNInt) : v ≤ 0 ↔ ∃ i, v = num i ∧ i ≤ 0 := by
  cases v with
  | num i => show decide (i ≤ 0) = true ↔ _; simp
  | nan => show false = true ↔ _; simp

theorem nan_iff (v : NaNInt) : IsNaN v ↔ v = nan := by
  unfold IsNaN
  rw [pos_iff, nonpos_iff]
  cases v with
  | num i => simp
  | nan => simp

theorem notNaN_iff (v : NaNInt) : NotNaN v ↔ v ≠ nan := by
  unfold NotNaN
  rw [pos_iff, nonpos_iff]
  cases v with
  | num i => simp
  | nan => simp
end NaNInt

/-- A solid half-space below the plane y = 0, in which the value at the origin is not a number. -/
def nanField : ScalarField NaNInt where
  value q := if q = ⟨.num 0, .num 0, .num 0⟩ then .nan else q.y
  grad _ := ⟨.nan, .nan, .nan⟩
  material _ _ := .Stone

/-- The same half-space without the NaN; the gradients are NaN. -/
def nanGradField : ScalarField NaNInt where
  value q := q.y
  grad _ := ⟨.nan, .nan, .nan⟩
  material _ _ := .Stone

/-- A finder whose answers are not numbers. -/
def nanFinder : ZeroFinder NaNInt := ⟨fun _ _ _ _ _ _ _ => .nan, fun _ _ _ _ _ _ _ => .nan, fun _ _ _ _ _ _ _ => .nan⟩

theorem nanGrid : ∃ g0 : Grid NaNInt, Grid.mk' 2 ⟨.num 0, .num 0, .num 0⟩ (.num 1) = .ok g0 ∧ g0.maxCoord = 1 ∧
    g0.globalPos = ⟨.num 0, .num 0, .num 0⟩ ∧ g0.step = .num 1 := ⟨_, rfl, rfl, rfl, rfl⟩

/-- C85 (the failure happens): a grid of 2^3 cells filled with a half-space whose value at one grid point is NaN cannot be meshed. -/
theorem C85_nan_fails : ∃ g0 g1 : Grid NaNInt, Grid.mk' 2 ⟨.num 0, .num 0, .num 0⟩ (.num 1) = .ok g0 ∧
    g0.fill nanField nanFinder = some g1 ∧ marchingCubes id g1 = none := by
  obtain ⟨g0, h0, hm, hp, hs⟩ := nanGrid
  have hg : g0.Reachable := .mk h0
  obtain ⟨g1, h1, -⟩ := C85_stored hg nanField nanFinder
  refine ⟨g0, g1, h0, h1, (C85_nan_iff hg ?_ ?_ h1 id).2 ?_⟩
  · intro q _; show Material.Stone ≠ .Empty; decide
  · intro v hv hl
    obtain ⟨i, rfl, hi⟩ := (NaNInt.pos_iff v).1 hv
    obtain ⟨j, hj, hl⟩ := (NaNInt.nonpos_iff _).1 hl
    cases hj; omega
  · rw [hm, hp, hs]
    refine ⟨⟨-1, -1, -1⟩, by unfold CellIn; decide, ⟨⟨0, 0, 0⟩, by decide, ?_, ?_⟩, ⟨-1, -1, -1⟩, by decide, ?_⟩
    · rw [NaNInt.nan_iff]; decide +kernel
    · show Material.Stone ≠ .Empty; decide
    · decide +kernel

/-- Non-vacuity: NaN gradients and NaN answers of the finder do no harm to the structure of the mesh. -/
example : ∃ g0 g1 : Grid NaNInt, Grid.mk' 2 ⟨.num 0, .num 0, .num 0⟩ (.num 1) = .ok g0 ∧
    g0.fill nanGradField nanFinder = some g1 ∧ (g1.edges .Y).length = 9 ∧ ∃ r, marchingCubes id g1 = some r := by
  obtain ⟨g0, h0, hm, hp, hs⟩ := nanGrid
  have hg : g0.Reachable := .mk h0
  have hl : ((Grid.mk' 2 ⟨.num 0, .num 0, .num 0⟩ (.num 1) : Except _ (Grid NaNInt)).toOption.bind fun g =>
    (g.fill nanGradField nanFinder).map fun g1 => (g1.edges .Y).length) = some 9 := by decide +kernel
  rw [h0] at hl
  obtain ⟨g1, h1, -⟩ := C85_stored hg nanGradField nanFinder
  obtain ⟨r, hr, -⟩ := C85_mesh hg (by intro q _; show Material.Stone ≠ .Empty; decide) (by
    intro p hp'
    rw [NaNInt.notNaN_iff, hm, hp, hs]
    rw [hm] at hp'
    obtain ⟨x, y, z⟩ := p
    simp only [InCube] at hp'
    have hy : y = -1 ∨ y = 0 ∨ y = 1 := by omega
    rcases hy with rfl | rfl | rfl <;> (simp only [nanGradField, samplePos]; decide +kernel)) h1 id
  simp only [Except.toOption, Option.bind_some, h1, Option.map_some, Option.some.injEq] at hl
  exact ⟨g0, g1, h0, h1, hl, r, hr⟩

end Isomesh
