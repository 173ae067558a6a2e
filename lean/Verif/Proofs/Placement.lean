import Verif.Spec.Placement
import Verif.Proofs.FillEdges
import Verif.Props.ZeroFinder

/-! Scaling and moving the world does not change what `fill` stores. -/

namespace Isomesh
open Spec

variable {K : Type} [Field K] [LinearOrder K] [IsStrictOrderedRing K]

theorem similar_movedField {s : K} (hs : s ≠ 0) (t : Vec3 K) (f : ScalarField K) : Similar s t f (movedField s t f) := by
  have key : ∀ a b : K, (s * a + b - b) / s = a := by intro a b; field_simp; ring
  refine ⟨fun q => ?_, fun q => ?_, fun q v => ?_⟩ <;> simp only [movedField, moved, key]
  rw [mul_div_cancel_left₀ _ hs]

theorem moved_set (s : K) (t p : Vec3 K) (C : Axis) (c : K) :
    (moved s t p).set C (s * c + t.get C) = moved s t (p.set C c) := by
  cases C <;> rfl

theorem moved_get (s : K) (t p : Vec3 K) (C : Axis) : (moved s t p).get C = s * p.get C + t.get C := by
  cases C <;> rfl

theorem bisectLoop_moved {s : K} (hs : 0 < s) {t : Vec3 K} {f f' : ScalarField K} (h : Similar s t f f') (C : Axis) (n : Nat) :
    ∀ (p : Vec3 K) (c0 c1 f0 f1 : K),
      bisectLoop f' C (moved s t p) n (s * c0 + t.get C) (s * c1 + t.get C) (s * f0) (s * f1) =
        s * bisectLoop f C p n c0 c1 f0 f1 + t.get C := by
  have ab : ∀ a : K, |s * a| = s * |a| := fun a => by rw [abs_mul, abs_of_pos hs]
  have le : ∀ a b : K, s * a ≤ s * b ↔ a ≤ b := fun a b => mul_le_mul_iff_of_pos_left hs
  have mn : ∀ a b : K, min (s * a) (s * b) = s * min a b := fun a b => (mul_min_of_nonneg _ _ hs.le).symm
  have em : ∀ a b : K, (s * a + t.get C + (s * b + t.get C)) * (1 / 2) = s * ((a + b) * (1 / 2)) + t.get C := by
    intro a b; field_simp; ring
  have sg : ∀ a b : K, s * a * (s * b) > 0 ↔ a * b > 0 := by
    intro a b
    rw [show s * a * (s * b) = s * s * (a * b) by ring]
    exact mul_pos_iff_of_pos_left (mul_pos hs hs)
  induction n with
  | zero =>
    intro p c0 c1 f0 f1
    simp only [bisectLoop, fabs_abs, ab, le]
    split_ifs <;> rfl
  | succ n ih =>
    intro p c0 c1 f0 f1
    simp only [bisectLoop, em, moved_set, h.value, fabs_abs, ab, sg, mn, le]
    split_ifs
    · exact ih _ _ _ _ _
    · exact ih _ _ _ _ _
    all_goals rfl

theorem bisectFind_moved {s : K} (hs : 0 < s) {t : Vec3 K} {f f' : ScalarField K} (h : Similar s t f f') (steps : Int)
    (C : Axis) (p : Vec3 K) (c1 f0 f1 : K) :
    bisectFind steps C (moved s t p).x (moved s t p).y (moved s t p).z (s * c1 + t.get C) (s * f0) (s * f1) f' =
      s * bisectFind steps C p.x p.y p.z c1 f0 f1 f + t.get C := by
  unfold bisectFind
  simp only
  rw [show (⟨(moved s t p).x, (moved s t p).y, (moved s t p).z⟩ : Vec3 K) = moved s t p from rfl,
    show (⟨p.x, p.y, p.z⟩ : Vec3 K) = p from rfl, moved_get]
  exact bisectLoop_moved hs h C _ _ _ _ _ _

theorem rfLoop_moved {s : K} (hs : 0 < s) {t : Vec3 K} {f f' : ScalarField K} (h : Similar s t f f') (C : Axis) (n : Nat) :
    ∀ (p : Vec3 K) (side : RFSide) (c0 c1 f0 f1 : K),
      rfLoop f' C (moved s t p) n side (s * c0 + t.get C) (s * c1 + t.get C) (s * f0) (s * f1) =
        (rfLoop f C p n side c0 c1 f0 f1).map (List.map fun c => s * c + t.get C) := by
  have hs0 : s ≠ 0 := hs.ne'
  have sg : ∀ a b : K, s * a * (s * b) > 0 ↔ a * b > 0 := by
    intro a b
    rw [show s * a * (s * b) = s * s * (a * b) by ring]
    exact mul_pos_iff_of_pos_left (mul_pos hs hs)
  have df : ∀ a b : K, s * a - s * b = 0 ↔ a - b = 0 := by
    intro a b; rw [← mul_sub]; simp [hs0]
  have dv : ∀ a b : K, s * a / (s * b) = a / b := fun a b => mul_div_mul_left _ _ hs0
  have ml : ∀ a b : K, s * a * b = s * (a * b) := fun a b => mul_assoc _ _ _
  induction n with
  | zero => intro p side c0 c1 f0 f1; rfl
  | succ n ih =>
    intro p side c0 c1 f0 f1
    simp only [rfLoop]
    by_cases e0 : f1 - f0 = 0
    · rw [if_pos e0, if_pos ((df _ _).2 e0)]; rfl
    · rw [if_neg e0, if_neg (fun d => e0 ((df _ _).1 d))]
      have em : ((s * c0 + t.get C) * (s * f1) - (s * c1 + t.get C) * (s * f0)) / (s * f1 - s * f0) =
          s * ((c0 * f1 - c1 * f0) / (f1 - f0)) + t.get C := by
        have e1 : s * f1 - s * f0 ≠ 0 := fun d => e0 ((df _ _).1 d)
        rw [div_eq_iff e1]
        field_simp
        ring
      rw [em, moved_set, h.value]
      generalize (c0 * f1 - c1 * f0) / (f1 - f0) = mid
      generalize f.value (p.set C mid) = val
      simp only [sg]
      simp only [dv, ml]
      have map_cons : ∀ o : Option (List K), (o.map (mid :: ·)).map (List.map fun c => s * c + t.get C) =
          (o.map (List.map fun c => s * c + t.get C)).map ((s * mid + t.get C) :: ·) := by
        intro o; cases o <;> rfl
      split_ifs <;> first | (rw [map_cons, ← ih]) | rfl

theorem rfFind_moved {s : K} (hs : 0 < s) {t : Vec3 K} {f f' : ScalarField K} (h : Similar s t f f') (steps : Int)
    (C : Axis) (p : Vec3 K) (c1 f0 f1 : K) :
    rfFind steps C (moved s t p).x (moved s t p).y (moved s t p).z (s * c1 + t.get C) (s * f0) (s * f1) f' =
      (rfFind steps C p.x p.y p.z c1 f0 f1 f).map fun c => s * c + t.get C := by
  unfold rfFind rfSamples
  simp only
  rw [show (⟨(moved s t p).x, (moved s t p).y, (moved s t p).z⟩ : Vec3 K) = moved s t p from rfl,
    show (⟨p.x, p.y, p.z⟩ : Vec3 K) = p from rfl, moved_get, rfLoop_moved hs h]
  cases rfLoop f C p (stepCount steps) .none (p.get C) c1 f0 f1 with
  | none => rfl
  | some l =>
    simp only [Option.map_some, Option.some.injEq, List.getLastD_eq_getLast?, List.getLast?_map]
    cases l.getLast? <;> rfl

/-- A solver whose answer moves with the segment and the field. -/
structure MovesWith (s : K) (t : Vec3 K) (f f' : ScalarField K) (sv : ZeroFinder K) : Prop where
  x : ∀ (p : Vec3 K) (c : K), (f.value p ≤ 0 ↔ ¬ f.value (p.set .X c) ≤ 0) →
    sv.findAlongX (moved s t p).x (moved s t p).y (moved s t p).z (s * c + t.x) (s * f.value p) (s * f.value (p.set .X c)) f' =
      s * sv.findAlongX p.x p.y p.z c (f.value p) (f.value (p.set .X c)) f + t.x
  y : ∀ (p : Vec3 K) (c : K), (f.value p ≤ 0 ↔ ¬ f.value (p.set .Y c) ≤ 0) →
    sv.findAlongY (moved s t p).x (moved s t p).y (moved s t p).z (s * c + t.y) (s * f.value p) (s * f.value (p.set .Y c)) f' =
      s * sv.findAlongY p.x p.y p.z c (f.value p) (f.value (p.set .Y c)) f + t.y
  z : ∀ (p : Vec3 K) (c : K), (f.value p ≤ 0 ↔ ¬ f.value (p.set .Z c) ≤ 0) →
    sv.findAlongZ (moved s t p).x (moved s t p).y (moved s t p).z (s * c + t.z) (s * f.value p) (s * f.value (p.set .Z c)) f' =
      s * sv.findAlongZ p.x p.y p.z c (f.value p) (f.value (p.set .Z c)) f + t.z

theorem bisection_movesWith {s : K} (hs : 0 < s) {t : Vec3 K} {f f' : ScalarField K} (h : Similar s t f f') (steps : Int) :
    MovesWith s t f f' (bisectionFinder steps) :=
  ⟨fun p c _ => bisectFind_moved hs h steps .X p c _ _, fun p c _ => bisectFind_moved hs h steps .Y p c _ _,
    fun p c _ => bisectFind_moved hs h steps .Z p c _ _⟩

theorem rf_isSome {f : ScalarField K} (steps : Int) (C : Axis) (p : Vec3 K) (c : K)
    (h : f.value p ≤ 0 ↔ ¬ f.value (p.set C c) ≤ 0) :
    ∃ r, rfFind steps C p.x p.y p.z c (f.value p) (f.value (p.set C c)) f = some r := by
  have hne : p.get C ≠ c := by
    rintro rfl
    rw [Vec3.set_get] at h
    tauto
  by_cases a : f.value p = 0
  · have b : f.value (p.set C c) ≠ 0 := fun b => (h.1 a.le) b.le
    exact ⟨_, (C12_zero_endpoint steps C p.x p.y p.z c f _ _ rfl rfl).1 a b⟩
  · by_cases b : f.value (p.set C c) = 0
    · exact ⟨_, (C12_zero_endpoint steps C p.x p.y p.z c f _ _ rfl rfl).2 b a⟩
    · obtain ⟨l, r, _, e, _⟩ := C12_regula_falsi steps C p.x p.y p.z c (f.value p) (f.value (p.set C c)) f hne (by
        rcases lt_or_gt_of_ne a with a' | a'
        · exact mul_neg_of_neg_of_pos a' (not_le.1 (h.1 a'.le))
        · refine mul_neg_of_pos_of_neg a' (lt_of_le_of_ne ?_ b)
          by_contra d
          exact absurd (h.2 d) (not_le.2 a'))
      exact ⟨r, e⟩

theorem regulaFalsi_movesWith {s : K} (hs : 0 < s) {t : Vec3 K} {f f' : ScalarField K} (h : Similar s t f f') (nan : K)
    (steps : Int) : MovesWith s t f f' (regulaFalsiFinder nan steps) := by
  have key : ∀ (C : Axis) (p : Vec3 K) (c : K), (f.value p ≤ 0 ↔ ¬ f.value (p.set C c) ≤ 0) →
      (rfFind steps C (moved s t p).x (moved s t p).y (moved s t p).z (s * c + t.get C) (s * f.value p)
        (s * f.value (p.set C c)) f').getD nan =
      s * (rfFind steps C p.x p.y p.z c (f.value p) (f.value (p.set C c)) f).getD nan + t.get C := by
    intro C p c hc
    obtain ⟨r, e⟩ := rf_isSome steps C p c hc
    rw [rfFind_moved hs h, e]
    rfl
  exact ⟨key .X, key .Y, key .Z⟩

/-- `b` is `a` moved to another place: the same size, at the scaled and moved position, with the scaled step. -/
structure MovedGrid (s : K) (t : Vec3 K) (a b : Grid K) : Prop where
  size : b.size = a.size
  half : b.half = a.half
  pos : b.globalPos = moved s t a.globalPos
  step : b.step = s * a.step

theorem MovedGrid.gpos {s : K} {t : Vec3 K} {a b : Grid K} (h : MovedGrid s t a b) (p : IVec3) :
    b.gpos p = moved s t (a.gpos p) := by
  unfold Grid.gpos Grid.localToGlobal
  rw [h.pos, h.step]
  simp only [moved, Vec3.mk.injEq]
  refine ⟨?_, ?_, ?_⟩ <;> ring

theorem gpos_set (g : Grid K) (D : Axis) (p : IVec3) :
    g.gpos (edgeEnd D p) = (g.gpos p).set D ((g.gpos (edgeEnd D p)).get D) := by
  cases D <;> simp [Grid.gpos, Grid.localToGlobal, edgeEnd, shift, Vec3.get, Vec3.set]

theorem Spec.Similar.nonpos {s : K} (hs : 0 < s) {t : Vec3 K} {f f' : ScalarField K} (h : Similar s t f f') (q : Vec3 K) :
    f'.value (moved s t q) ≤ 0 ↔ f.value q ≤ 0 := by
  rw [h.value]
  constructor
  · intro c; by_contra d; exact absurd c (not_le.2 (mul_pos hs (not_le.1 d)))
  · intro c; exact mul_nonpos_of_nonneg_of_nonpos hs.le c

theorem Spec.Similar.vertexMaterial {s : K} (hs : 0 < s) {t : Vec3 K} {f f' : ScalarField K} (h : Similar s t f f') (q : Vec3 K) :
    Spec.vertexMaterial f' (moved s t q) = Spec.vertexMaterial f q := by
  simp only [vertexMaterial_le]
  by_cases c : f.value q ≤ 0
  · rw [if_pos c, if_pos ((h.nonpos hs q).2 c), h.value, h.material]
  · rw [if_neg c, if_neg (fun d => c ((h.nonpos hs q).1 d))]

theorem crossingCoord_moved {s : K} (hs : 0 < s) {t : Vec3 K} {f f' : ScalarField K} (h : Similar s t f f') {sv : ZeroFinder K}
    (hv : MovesWith s t f f' sv) {a b : Grid K} (hm : MovedGrid s t a b) (D : Axis) (p : IVec3) (hc : Crosses f a.gpos D p) :
    crossingCoord f' sv b.gpos D p = s * crossingCoord f sv a.gpos D p + t.get D := by
  have hc' : f.value (a.gpos p) ≤ 0 ↔ ¬ f.value ((a.gpos p).set D ((a.gpos (edgeEnd D p)).get D)) ≤ 0 := by
    rw [← gpos_set]
    unfold Crosses at hc
    tauto
  unfold crossingCoord
  simp only [hm.gpos, h.value]
  cases D with
  | X => have := hv.x _ _ hc'; rw [← gpos_set] at this; exact this
  | Y => have := hv.y _ _ hc'; rw [← gpos_set] at this; exact this
  | Z => have := hv.z _ _ hc'; rw [← gpos_set] at this; exact this

theorem edgeOut_moved {s : K} (hs : 0 < s) {t : Vec3 K} {f f' : ScalarField K} (h : Similar s t f f') {sv : ZeroFinder K}
    (hv : MovesWith s t f f' sv) {a b : Grid K} (hm : MovedGrid s t a b) (D : Axis) (p : IVec3) :
    edgeOut b f' sv D p = edgeOut a f sv D p := by
  have hcr : Crosses f' b.gpos D p ↔ Crosses f a.gpos D p := by
    unfold Crosses
    rw [hm.gpos, hm.gpos, h.nonpos hs, h.nonpos hs]
  unfold edgeOut
  by_cases c : Crosses f a.gpos D p
  · rw [if_pos c, if_pos (hcr.2 c)]
    have e := crossingCoord_moved hs h hv hm D p c
    unfold edgeRecord
    simp only [e]
    rw [hm.gpos, hm.gpos, moved_set, moved_get, h.grad, h.vertexMaterial hs, h.vertexMaterial hs, hm.step]
    simp only [h.nonpos hs]
    rw [show s * crossingCoord f sv a.gpos D p + t.get D - (s * (a.gpos p).get D + t.get D) =
      s * (crossingCoord f sv a.gpos D p - (a.gpos p).get D) by ring, mul_div_mul_left _ _ hs.ne']
  · rw [if_neg c, if_neg (fun d => c (hcr.1 d))]

theorem allEdges_moved {s : K} (hs : 0 < s) {t : Vec3 K} {f f' : ScalarField K} (h : Similar s t f f') {sv : ZeroFinder K}
    (hv : MovesWith s t f f' sv) {a b : Grid K} (hm : MovedGrid s t a b) (D : Axis) :
    allEdges b f' sv D = allEdges a f sv D := by
  have e1 : hiY b D = hiY a D := by cases D <;> simp [hiY, hm.half]
  have e2 : hiX b D = hiX a D := by cases D <;> simp [hiX, hm.half]
  have e3 : hiZ b D = hiZ a D := by cases D <;> simp [hiZ, hm.half]
  unfold allEdges
  simp only [e1, e2, e3, hm.half, edgeOut_moved hs h hv hm]

/-- The grid with another placement. -/
def Grid.place {K : Type} (g : Grid K) (pos : Vec3 K) (step : K) : Grid K := { g with globalPos := pos, step := step }

theorem fill_moved {s : K} (hs : 0 < s) {t : Vec3 K} {f f' : ScalarField K} (h : Similar s t f f') {sv : ZeroFinder K}
    (hv : MovesWith s t f f' sv) {a b a' b' : Grid K} (ha : a.WF) (hb : b.WF) (hm : MovedGrid s t a b)
    (ea : a.fill f sv = some a') (eb : b.fill f' sv = some b') :
    b' = a'.place (moved s t a.globalPos) (s * a.step) := by
  obtain ⟨a2, e1, s1, h1, p1, t1, l1, m1, d1⟩ := fill_spec ha f sv
  obtain ⟨b2, e2, s2, h2, p2, t2, l2, m2, d2⟩ := fill_spec hb f' sv
  rw [ea] at e1; cases e1
  rw [eb] at e2; cases e2
  have hmat : b'.mat = a'.mat := by
    have hd : b.dataSize = a.dataSize := by unfold Grid.dataSize; rw [hm.size]
    apply List.ext_getElem?
    intro i
    by_cases hi : i < a.dataSize
    · obtain ⟨p, hp, rfl⟩ := Grid.exists_vidx ha hi
      have hvi : b.vidx p = a.vidx p := by unfold Grid.vidx; rw [hm.half, hm.size]
      have hp' : InCube b.half p := by rw [hm.half]; exact hp
      rw [m1 p hp, ← hvi, m2 p hp', fieldMat_eq, fieldMat_eq, hm.gpos, h.vertexMaterial hs]
    · rw [List.getElem?_eq_none (by omega), List.getElem?_eq_none (by omega)]
  have hX : b'.edgeX = a'.edgeX := by
    have := (d2 .X).trans ((allEdges_moved hs h hv hm .X).trans (d1 .X).symm); exact this
  have hY : b'.edgeY = a'.edgeY := by
    have := (d2 .Y).trans ((allEdges_moved hs h hv hm .Y).trans (d1 .Y).symm); exact this
  have hZ : b'.edgeZ = a'.edgeZ := by
    have := (d2 .Z).trans ((allEdges_moved hs h hv hm .Z).trans (d1 .Z).symm); exact this
  have hS : b'.size = a'.size := by rw [s2, s1, hm.size]
  have hH : b'.half = a'.half := by rw [h2, h1, hm.half]
  have hP : b'.globalPos = moved s t a.globalPos := by rw [p2, hm.pos]
  have hT : b'.step = s * a.step := by rw [t2, hm.step]
  cases a'; cases b'
  simp only at hmat hX hY hZ hS hH hP hT
  subst hmat hX hY hZ hS hH hP hT
  rfl

end Isomesh
