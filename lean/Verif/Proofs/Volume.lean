import Verif.Proofs.CellVolume
import Verif.Spec.Volume
import Mathlib.Algebra.BigOperators.Ring.Finset
import Mathlib.Algebra.BigOperators.Intervals

/-! The volume of the marching cubes triangles of a box of lattice cells. -/

namespace Isomesh
open Spec

variable {K : Type} [Field K] [LinearOrder K] [IsStrictOrderedRing K]

/-- The pattern of a cell. -/
def volMask (s : IVec3 → Bool) (P : IVec3) : Nat := maskOf (fun i => s (shift P (cornerPos i).x (cornerPos i).y (cornerPos i).z)) 8

theorem volMask_lt (s : IVec3 → Bool) (P : IVec3) : volMask s P < 256 := maskOf_lt _ 8

theorem solid_volMask (s : IVec3 → Bool) (P : IVec3) {c : Nat} (hc : c < 8) :
    solid (volMask s P) c = s (shift P (cornerPos c).x (cornerPos c).y (cornerPos c).z) := by
  unfold solid volMask
  rw [testBit_maskOf]
  simp [hc]

/-- The positions of the vertices of a cell on its edges. -/
def volT (τ : LEdge → K) (P : IVec3) (i : Nat) : K := τ (slotEdge P i)

/-- Twice the solid area of the lower face along `a`. -/
def loFace (s : IVec3 → Bool) (τ : LEdge → K) (a : Axis) (P : IVec3) : K := evalPoly (volT τ P) (faceP (volMask s P) a false)

/-- Six times the solid volume. -/
def latVol (s : IVec3 → Bool) (τ : LEdge → K) (P : IVec3) : K := evalPoly (volT τ P) (volP (volMask s P))

/-- The vertex on edge `i` of cell `P`, placed. -/
def latPoint (τ : LEdge → K) (sc : K) (c : Vec3 K) (P : IVec3) (i : Nat) : Vec3 K :=
  ⟨((P.x : K) + (relPoint i (volT τ P i) : Vec3 K).x) * sc + c.x, ((P.y : K) + (relPoint i (volT τ P i) : Vec3 K).y) * sc + c.y,
    ((P.z : K) + (relPoint i (volT τ P i) : Vec3 K).z) * sc + c.z⟩

/-- Six times the signed volume of the triangles of the cell. -/
def latSum (s : IVec3 → Bool) (τ : LEdge → K) (sc : K) (c : Vec3 K) (P : IVec3) : K :=
  ((mcTriangles (volMask s P)).map fun t => tripleProduct (latPoint τ sc c P t.1) (latPoint τ sc c P t.2.1) (latPoint τ sc c P t.2.2)).sum

theorem hiFace_eq (s : IVec3 → Bool) (τ : LEdge → K) (a : Axis) (P : IVec3) :
    evalPoly (volT τ P) (faceP (volMask s P) a true) = loFace s τ a (edgeEnd a P) := by
  unfold loFace
  obtain ⟨x, y, z⟩ := P
  cases a <;> simp only [faceP, eval_facePoly] <;>
    (rw [solid_volMask _ _ (by omega), solid_volMask _ _ (by omega), solid_volMask _ _ (by omega), solid_volMask _ _ (by omega),
      solid_volMask _ _ (by omega), solid_volMask _ _ (by omega), solid_volMask _ _ (by omega), solid_volMask _ _ (by omega)];
     simp [volT, slotEdge, slotAxis, slotOff, edgeCorner, kCellEdgeEndpoint, cornerPos, shift, edgeEnd])

theorem eval_detP (t : Nat → K) {T : Nat × Nat × Nat} (h : T.1 < 12 ∧ T.2.1 < 12 ∧ T.2.2 < 12) :
    evalPoly t (detP T) = tripleProduct (relPoint T.1 (t T.1)) (relPoint T.2.1 (t T.2.1)) (relPoint T.2.2 (t T.2.2)) := by
  simp only [detP, prodP, eval_append, eval_neg, eval_mul, eval_coordP t h.1, eval_coordP t h.2.1, eval_coordP t h.2.2,
    tripleProduct, Vec3.dot, Vec3.cross, Vec3.get]
  ring

theorem eval_areaP (t : Nat → K) {T : Nat × Nat × Nat} (h : T.1 < 12 ∧ T.2.1 < 12 ∧ T.2.2 < 12) (a b : Axis) :
    evalPoly t (areaP a b T) =
      ((relPoint T.1 (t T.1) : Vec3 K).get a * (relPoint T.2.1 (t T.2.1) : Vec3 K).get b - (relPoint T.1 (t T.1) : Vec3 K).get b * (relPoint T.2.1 (t T.2.1) : Vec3 K).get a) +
      ((relPoint T.2.1 (t T.2.1) : Vec3 K).get a * (relPoint T.2.2 (t T.2.2) : Vec3 K).get b - (relPoint T.2.1 (t T.2.1) : Vec3 K).get b * (relPoint T.2.2 (t T.2.2) : Vec3 K).get a) +
      ((relPoint T.2.2 (t T.2.2) : Vec3 K).get a * (relPoint T.1 (t T.1) : Vec3 K).get b - (relPoint T.2.2 (t T.2.2) : Vec3 K).get b * (relPoint T.1 (t T.1) : Vec3 K).get a) := by
  simp only [areaP, crossP, eval_append, eval_neg, eval_mul, eval_coordP t h.1, eval_coordP t h.2.1, eval_coordP t h.2.2]
  ring

theorem tri_lt {m : Nat} (hm : m < 256) {t : Nat × Nat × Nat} (ht : t ∈ mcTriangles m) : t.1 < 12 ∧ t.2.1 < 12 ∧ t.2.2 < 12 := by
  obtain ⟨-, -, -, -, htab⟩ := C14_triangle_table.2 _ hm
  obtain ⟨l1, l2, l3, -⟩ := htab t ht
  exact ⟨l1, l2, l3⟩

/-- What telescopes along axis `a`. -/
def latFlux (s : IVec3 → Bool) (τ : LEdge → K) (sc : K) (c : Vec3 K) (a : Axis) (P : IVec3) : K :=
  (sc ^ 3 * (P.get a : K) + sc ^ 2 * c.get a) * loFace s τ a P

theorem lat_cell (s : IVec3 → Bool) (τ : LEdge → K) (sc : K) (c : Vec3 K) (P : IVec3) :
    latSum s τ sc c P = sc ^ 3 * latVol s τ P - ((latFlux s τ sc c .X (edgeEnd .X P) - latFlux s τ sc c .X P) +
      (latFlux s τ sc c .Y (edgeEnd .Y P) - latFlux s τ sc c .Y P) + (latFlux s τ sc c .Z (edgeEnd .Z P) - latFlux s τ sc c .Z P)) := by
  have hm := volMask_lt s P
  obtain ⟨b1, b2, b3⟩ := cell_balance hm (volT τ P)
  unfold balP at b1 b2 b3
  rw [eval_append, eval_append, eval_neg, hiFace_eq, eval_flatMap] at b1 b2 b3
  have key : latSum s τ sc c P = sc ^ 3 * ((mcTriangles (volMask s P)).map fun t => evalPoly (volT τ P) (detP t)).sum +
      (sc ^ 3 * (P.x : K) + sc ^ 2 * c.x) * ((mcTriangles (volMask s P)).map fun t => evalPoly (volT τ P) (areaP .Y .Z t)).sum +
      (sc ^ 3 * (P.y : K) + sc ^ 2 * c.y) * ((mcTriangles (volMask s P)).map fun t => evalPoly (volT τ P) (areaP .Z .X t)).sum +
      (sc ^ 3 * (P.z : K) + sc ^ 2 * c.z) * ((mcTriangles (volMask s P)).map fun t => evalPoly (volT τ P) (areaP .X .Y t)).sum := by
    unfold latSum
    have hall : ∀ t ∈ mcTriangles (volMask s P), t.1 < 12 ∧ t.2.1 < 12 ∧ t.2.2 < 12 := fun t ht => tri_lt hm ht
    generalize mcTriangles (volMask s P) = L at hall
    clear b1 b2 b3
    induction L with
    | nil => simp
    | cons T L ih =>
      have hT := hall T List.mem_cons_self
      simp only [List.map_cons, List.sum_cons]
      rw [ih fun t ht => hall t (List.mem_cons_of_mem _ ht)]
      rw [eval_detP _ hT, eval_areaP _ hT, eval_areaP _ hT, eval_areaP _ hT]
      simp only [tripleProduct, latPoint, Vec3.dot, Vec3.cross, Vec3.get]
      ring
  rw [key]
  unfold latVol volP latFlux
  rw [eval_append, eval_append, eval_append, hiFace_eq, hiFace_eq, hiFace_eq, eval_flatMap]
  have ex : ((edgeEnd .X P).get .X : K) = P.x + 1 := by simp [edgeEnd, shift, IVec3.get]
  have ey : ((edgeEnd .Y P).get .Y : K) = P.y + 1 := by simp [edgeEnd, shift, IVec3.get]
  have ez : ((edgeEnd .Z P).get .Z : K) = P.z + 1 := by simp [edgeEnd, shift, IVec3.get]
  rw [ex, ey, ez]
  have e1 := eq_neg_of_add_eq_zero_left b1
  have e2 := eq_neg_of_add_eq_zero_left b2
  have e3 := eq_neg_of_add_eq_zero_left b3
  rw [e1, e2, e3]
  unfold loFace
  simp only [IVec3.get, Vec3.get]
  ring

/-! ### Boxes -/

/-- A function summed over a cube of cells. -/
def boxSum (n : Nat) (B : IVec3) (F : IVec3 → K) : K :=
  ∑ i ∈ Finset.range n, ∑ j ∈ Finset.range n, ∑ k ∈ Finset.range n, F ⟨B.x + i, B.y + j, B.z + k⟩

theorem boxSum_tele (n : Nat) (B : IVec3) (a : Axis) (F : IVec3 → K)
    (h0 : ∀ i j : Nat, i < n → j < n → F (match a with | .X => ⟨B.x, B.y + i, B.z + j⟩ | .Y => ⟨B.x + i, B.y, B.z + j⟩ | .Z => ⟨B.x + i, B.y + j, B.z⟩) = 0)
    (h1 : ∀ i j : Nat, i < n → j < n → F (match a with
      | .X => ⟨B.x + n, B.y + i, B.z + j⟩ | .Y => ⟨B.x + i, B.y + n, B.z + j⟩ | .Z => ⟨B.x + i, B.y + j, B.z + n⟩) = 0) :
    boxSum n B (fun P => F (edgeEnd a P) - F P) = 0 := by
  unfold boxSum
  cases a with
  | X =>
    rw [Finset.sum_comm]
    refine Finset.sum_eq_zero fun j hj => ?_
    rw [Finset.sum_comm]
    refine Finset.sum_eq_zero fun k hk => ?_
    have := Finset.sum_range_sub (fun i : Nat => F ⟨B.x + i, B.y + j, B.z + k⟩) n
    refine Eq.trans (Finset.sum_congr rfl fun i _ => ?_) (this.trans ?_)
    · simp only [edgeEnd, shift, Nat.cast_add, Nat.cast_one, add_zero, add_assoc]
    · rw [h1 j k (Finset.mem_range.mp hj) (Finset.mem_range.mp hk)]
      simpa using h0 j k (Finset.mem_range.mp hj) (Finset.mem_range.mp hk)
  | Y =>
    refine Finset.sum_eq_zero fun i hi => ?_
    rw [Finset.sum_comm]
    refine Finset.sum_eq_zero fun k hk => ?_
    have := Finset.sum_range_sub (fun j : Nat => F ⟨B.x + i, B.y + j, B.z + k⟩) n
    refine Eq.trans (Finset.sum_congr rfl fun j _ => ?_) (this.trans ?_)
    · simp only [edgeEnd, shift, Nat.cast_add, Nat.cast_one, add_zero, add_assoc]
    · rw [h1 i k (Finset.mem_range.mp hi) (Finset.mem_range.mp hk)]
      simpa using h0 i k (Finset.mem_range.mp hi) (Finset.mem_range.mp hk)
  | Z =>
    refine Finset.sum_eq_zero fun i hi => ?_
    refine Finset.sum_eq_zero fun j hj => ?_
    have := Finset.sum_range_sub (fun k : Nat => F ⟨B.x + i, B.y + j, B.z + k⟩) n
    refine Eq.trans (Finset.sum_congr rfl fun k _ => ?_) (this.trans ?_)
    · simp only [edgeEnd, shift, Nat.cast_add, Nat.cast_one, add_zero, add_assoc]
    · rw [h1 i j (Finset.mem_range.mp hi) (Finset.mem_range.mp hj)]
      simpa using h0 i j (Finset.mem_range.mp hi) (Finset.mem_range.mp hj)

theorem loFace_empty (s : IVec3 → Bool) (τ : LEdge → K) (a : Axis) (P : IVec3) (h : ∀ v ∈ faceVertices a P, s v = false) : loFace s τ a P = 0 := by
  unfold loFace
  obtain ⟨x, y, z⟩ := P
  cases a <;> simp only [faceP, eval_facePoly] <;>
    (rw [solid_volMask _ _ (by omega), solid_volMask _ _ (by omega), solid_volMask _ _ (by omega), solid_volMask _ _ (by omega)];
     simp only [faceVertices, List.mem_cons, List.not_mem_nil, or_false, forall_eq_or_imp, forall_eq, shift, add_zero] at h
     simp [cornerPos, shift, h, faceArea])

/-- The total of a box with empty border. -/
theorem latSum_box (s : IVec3 → Bool) (τ : LEdge → K) (sc : K) (c : Vec3 K) (n : Nat) (B : IVec3)
    (hs : ∀ p : IVec3, (∃ a, p.get a = B.get a ∨ p.get a = B.get a + n) → s p = false) :
    boxSum n B (latSum s τ sc c) = sc ^ 3 * boxSum n B (latVol s τ) := by
  have hzero : ∀ a P, (P.get a = B.get a ∨ P.get a = B.get a + n) → latFlux s τ sc c a P = 0 := by
    intro a P hP
    unfold latFlux
    rw [loFace_empty, mul_zero]
    intro v hv
    refine hs v ⟨a, ?_⟩
    have : v.get a = P.get a := by
      cases a <;> simp only [faceVertices, List.mem_cons, List.not_mem_nil, or_false] at hv <;>
        rcases hv with rfl | rfl | rfl | rfl <;> simp [shift, IVec3.get]
    rw [this]
    exact hP
  have hb : ∀ F G : IVec3 → K, boxSum n B (fun P => F P + G P) = boxSum n B F + boxSum n B G := by
    intro F G
    simp only [boxSum, Finset.sum_add_distrib]
  have ht := fun a => boxSum_tele n B a (latFlux s τ sc c a)
    (fun i j _ _ => hzero a _ (by cases a <;> exact Or.inl rfl)) (fun i j _ _ => hzero a _ (by cases a <;> exact Or.inr rfl))
  have hcell : latSum s τ sc c = fun P => sc ^ 3 * latVol s τ P + -1 * ((latFlux s τ sc c .X (edgeEnd .X P) - latFlux s τ sc c .X P) +
      (latFlux s τ sc c .Y (edgeEnd .Y P) - latFlux s τ sc c .Y P) + (latFlux s τ sc c .Z (edgeEnd .Z P) - latFlux s τ sc c .Z P)) := by
    funext P
    rw [lat_cell]
    ring
  rw [hcell, hb]
  have hmul : ∀ (x : K) (F : IVec3 → K), boxSum n B (fun P => x * F P) = x * boxSum n B F := by
    intro x F
    simp only [boxSum, Finset.mul_sum]
  rw [hmul, hmul, hb, hb, ht, ht, ht]
  ring

/-- Bounds for one cell. -/
theorem latVol_bounds (s : IVec3 → Bool) (τ : LEdge → K) (hτ : ∀ e, 0 ≤ τ e ∧ τ e ≤ 1) (P : IVec3) :
    (if ∀ v ∈ cellVertices P, s v = true then (6 : K) else 0) ≤ latVol s τ P ∧
    latVol s τ P ≤ (if ∃ v ∈ cellVertices P, s v = true then (6 : K) else 0) := by
  obtain ⟨h0, h6⟩ := cell_volume (volMask_lt s P) (fun i => hτ (slotEdge P i))
  have hall : ∀ c < 8, shift P (cornerPos c).x (cornerPos c).y (cornerPos c).z ∈ cellVertices P := by
    intro c hc
    obtain ⟨x, y, z⟩ := P
    interval_cases c <;> simp [cornerPos, shift, cellVertices]
  have hex : ∀ v ∈ cellVertices P, ∃ c < 8, v = shift P (cornerPos c).x (cornerPos c).y (cornerPos c).z := by
    intro v hv
    obtain ⟨x, y, z⟩ := P
    simp only [cellVertices, List.mem_cons, List.not_mem_nil, or_false] at hv
    rcases hv with rfl | rfl | rfl | rfl | rfl | rfl | rfl | rfl
    · exact ⟨0, by omega, by simp [cornerPos, shift]⟩
    · exact ⟨1, by omega, by simp [cornerPos, shift]⟩
    · exact ⟨2, by omega, by simp [cornerPos, shift]⟩
    · exact ⟨3, by omega, by simp [cornerPos, shift]⟩
    · exact ⟨4, by omega, by simp [cornerPos, shift]⟩
    · exact ⟨5, by omega, by simp [cornerPos, shift]⟩
    · exact ⟨6, by omega, by simp [cornerPos, shift]⟩
    · exact ⟨7, by omega, by simp [cornerPos, shift]⟩
  constructor
  · split_ifs with h
    · have hm : volMask s P = 255 := by
        apply Nat.eq_of_testBit_eq
        intro i
        unfold volMask
        rw [testBit_maskOf]
        by_cases hi : i < 8
        · rw [h _ (hall i hi)]
          interval_cases i <;> rfl
        · have : Nat.testBit 255 i = false := Nat.testBit_lt_two_pow (lt_of_lt_of_le (by norm_num) (Nat.pow_le_pow_right (by norm_num) (show 8 ≤ i by omega)))
          simp [hi, this]
      have : latVol s τ P = 6 := by
        unfold latVol
        rw [hm]
        have e : volP 255 = [([], 2), ([], 2), ([], 2)] := by decide +kernel
        rw [e]
        simp [evalPoly, evalMono]
        norm_num
      rw [this]
    · exact h0
  · split_ifs with h
    · exact h6
    · have hm : volMask s P = 0 := by
        apply Nat.eq_of_testBit_eq
        intro i
        unfold volMask
        rw [testBit_maskOf]
        by_cases hi : i < 8
        · have : s (shift P (cornerPos i).x (cornerPos i).y (cornerPos i).z) = false := by
            by_contra hc
            exact h ⟨_, hall i hi, by simpa using hc⟩
          rw [this]
          simp
        · simp [hi]
      have : latVol s τ P = 0 := by
        unfold latVol
        rw [hm]
        have e : volP 0 = [] := by decide +kernel
        rw [e]
        rfl
      rw [this]

end Isomesh
