import Verif.Proofs.DcTotal
import Verif.Props.Tables

/-! `checkTopoSafety` agrees with its specification. -/

namespace Isomesh
open Spec

theorem manifoldPattern_iff {f : Fin 8 → Bool} {m : Nat} (hm : ∀ i : Fin 8, Spec.solid m i = f i) :
    ManifoldPattern f ↔ CornersConnected m true ∧ CornersConnected m false := by
  have key : ∀ kind, CornersConnected m kind ↔ ∀ a b : Fin 8, f a = kind → f b = kind →
      Relation.ReflTransGen (fun c d : Fin 8 => adjacentCorners c d = true ∧ f c = kind ∧ f d = kind) a b := by
    intro kind
    constructor
    · intro h a b ha hb
      have := h a a.2 b b.2 (by rw [hm]; exact ha) (by rw [hm]; exact hb)
      have gen : ∀ y : Nat, Relation.ReflTransGen (fun c d => adjacentCorners c d = true ∧ solid m c = kind ∧ solid m d = kind) (a : Nat) y →
          ∃ hy : y < 8, Relation.ReflTransGen (fun c d : Fin 8 => adjacentCorners c d = true ∧ f c = kind ∧ f d = kind) a ⟨y, hy⟩ := by
        intro y hy
        induction hy with
        | refl => exact ⟨a.2, .refl⟩
        | @tail y z _ hst ih =>
          obtain ⟨hy, ih⟩ := ih
          have hz : z < 8 := by
            have := hst.1
            simp only [adjacentCorners, Bool.and_eq_true, decide_eq_true_eq] at this
            exact this.1.2
          refine ⟨hz, ih.tail ⟨hst.1, ?_, ?_⟩⟩
          · rw [← hm]; exact hst.2.1
          · rw [← hm]; exact hst.2.2
      obtain ⟨_, h'⟩ := gen b this
      exact h'
    · intro h c hc d hd h1 h2
      have := h ⟨c, hc⟩ ⟨d, hd⟩ (by rw [← hm]; exact h1) (by rw [← hm]; exact h2)
      exact this.lift (fun x : Fin 8 => (x : Nat)) (fun x y hxy => ⟨hxy.1, by rw [hm]; exact hxy.2.1, by rw [hm]; exact hxy.2.2⟩)
  rw [key, key]
  constructor
  · intro h
    exact ⟨fun a b ha hb => by simpa only [ha] using h a b (ha.trans hb.symm),
      fun a b ha hb => by simpa only [ha] using h a b (ha.trans hb.symm)⟩
  · rintro ⟨h1, h2⟩ a b hab
    cases hfa : f a
    · exact h2 a b hfa (hab ▸ hfa)
    · exact h1 a b hfa (hab ▸ hfa)

theorem dcManifold_iff (f : Fin 8 → Material) : dcManifold f = true ↔ ManifoldPattern fun i => decide (f i ≠ .Empty) := by
  have hlt : Nat.ofBits (fun i : Fin 8 => decide (f i ≠ .Empty)) < 256 := Nat.ofBits_lt_two_pow _
  have hm : ∀ i : Fin 8, Spec.solid (Nat.ofBits fun i : Fin 8 => decide (f i ≠ .Empty)) i = decide (f i ≠ .Empty) := by
    intro i
    exact Nat.testBit_ofBits_lt _ _ i.2
  rw [manifoldPattern_iff hm]
  obtain ⟨b, h1, h2⟩ := C25_manifold_table.2 _ hlt
  rw [← h2]
  have : dcMask (Nat.ofBits fun i : Fin 8 => decide (f i ≠ .Empty)) =
      (List.finRange 8).foldl (fun mask i => if f i ≠ .Empty then mask ||| 1 <<< (kDcToMc.getD i 0) else mask) 0 := by
    unfold dcMask
    rw [show List.range 8 = (List.finRange 8).map Fin.val from rfl, List.foldl_map]
    have hfn : (fun (w : Nat) (i : Fin 8) => if Spec.solid (Nat.ofBits fun i : Fin 8 => decide (f i ≠ .Empty)) i = true then
        w ||| 1 <<< (kDcToMc.getD i 0) else w) = fun w i => if f i ≠ .Empty then w ||| 1 <<< (kDcToMc.getD i 0) else w := by
      funext w i
      rw [hm]
      simp only [decide_eq_true_eq]
    rw [hfn]
  unfold dcManifold
  rw [← this, List.getD_eq_getElem?_getD, h1]
  rfl

theorem halfGrid_iff {p : IVec3} : HalfGrid p ↔ p.x ∈ [(0 : Int), 1, 2] ∧ p.y ∈ [(0 : Int), 1, 2] ∧ p.z ∈ [(0 : Int), 1, 2] := by
  simp only [List.mem_cons, List.not_mem_nil, or_false]
  constructor
  · intro h; exact ⟨h .X, h .Y, h .Z⟩
  · rintro ⟨h1, h2, h3⟩ a; cases a <;> assumption

theorem mid_cases {M : IVec3 → Material} {a b c : IVec3} :
    (!(decide (M a ≠ M b) && decide (M a ≠ M c))) = true ↔ M a = M b ∨ M a = M c := by
  by_cases h1 : M a = M b <;> by_cases h2 : M a = M c <;> simp [h1, h2]

theorem not_one {x : Int} (h : x = 0 ∨ x = 1 ∨ x = 2) (h1 : x ≠ 1) : x = 0 ∨ x = 2 := by omega

theorem topoSafety_iff (M : CubeMats) : dcTopoSafety M = true ↔ TopoSafe M := by
  have hcoarse : ∀ i, (cornerOff i).plus (cornerOff i) = octCorner ⟨0, 0, 0⟩ 2 i := by
    intro i; rw [cornerOff_eq]; simp only [IVec3.plus, octCorner, IVec3.mk.injEq]; refine ⟨by ring, by ring, by ring⟩
  have hfine : ∀ i j, (cornerOff i).plus (cornerOff j) = octCorner (octOff i) 1 j := by
    intro i j; rw [cornerOff_eq, cornerOff_eq]; simp only [IVec3.plus, octCorner, one_mul]
  unfold dcTopoSafety
  simp only [Bool.and_eq_true, List.all_eq_true, dcManifold_iff, hcoarse, hfine, mid_cases, List.any_eq_true, decide_eq_true_eq,
    List.mem_finRange, true_and, forall_const]
  constructor
  · rintro ⟨⟨⟨⟨h1, h2⟩, h3⟩, h4⟩, i, h5⟩
    refine ⟨h1, h2, ?_, ?_, ?_⟩
    · rintro D ⟨x, y, z⟩ hp hD
      obtain ⟨hx, hy, hz⟩ := halfGrid_iff.1 hp
      cases D
      · simp only [IVec3.get] at hD
        subst hD
        rcases (h3 y hy z hz).1.2 with h | h
        · exact ⟨⟨0, y, z⟩, halfGrid_iff.2 ⟨by simp, hy, hz⟩, by simp [IVec3.get], by intro a ha; cases a <;> first | exact absurd rfl ha | rfl, h⟩
        · exact ⟨⟨2, y, z⟩, halfGrid_iff.2 ⟨by simp, hy, hz⟩, by simp [IVec3.get], by intro a ha; cases a <;> first | exact absurd rfl ha | rfl, h⟩
      · simp only [IVec3.get] at hD
        subst hD
        rcases (h3 x hx z hz).1.1 with h | h
        · exact ⟨⟨x, 0, z⟩, halfGrid_iff.2 ⟨hx, by simp, hz⟩, by simp [IVec3.get], by intro a ha; cases a <;> first | exact absurd rfl ha | rfl, h⟩
        · exact ⟨⟨x, 2, z⟩, halfGrid_iff.2 ⟨hx, by simp, hz⟩, by simp [IVec3.get], by intro a ha; cases a <;> first | exact absurd rfl ha | rfl, h⟩
      · simp only [IVec3.get] at hD
        subst hD
        rcases (h3 y hy x hx).2 with h | h
        · exact ⟨⟨x, y, 0⟩, halfGrid_iff.2 ⟨hx, hy, by simp⟩, by simp [IVec3.get], by intro a ha; cases a <;> first | exact absurd rfl ha | rfl, h⟩
        · exact ⟨⟨x, y, 2⟩, halfGrid_iff.2 ⟨hx, hy, by simp⟩, by simp [IVec3.get], by intro a ha; cases a <;> first | exact absurd rfl ha | rfl, h⟩
    · rintro D ⟨x, y, z⟩ hp hD
      obtain ⟨hx, hy, hz⟩ := halfGrid_iff.1 hp
      cases D
      · have e1 : y = 1 := hD .Y (by decide)
        have e2 : z = 1 := hD .Z (by decide)
        subst e1; subst e2
        obtain ⟨q, hq, e⟩ := (h4 x hx).1.2
        refine ⟨q, ?_, ?_, ?_, e⟩ <;> simp only [List.mem_cons, List.not_mem_nil, or_false] at hq <;>
          rcases hq with rfl | rfl | rfl | rfl <;>
          first
            | exact halfGrid_iff.2 ⟨hx, by simp, by simp⟩
            | (intro a ha; cases a <;> first | exact absurd rfl ha | rfl | simp [IVec3.get])
            | rfl
      · have e1 : x = 1 := hD .X (by decide)
        have e2 : z = 1 := hD .Z (by decide)
        subst e1; subst e2
        obtain ⟨q, hq, e⟩ := (h4 y hy).2
        refine ⟨q, ?_, ?_, ?_, e⟩ <;> simp only [List.mem_cons, List.not_mem_nil, or_false] at hq <;>
          rcases hq with rfl | rfl | rfl | rfl <;>
          first
            | exact halfGrid_iff.2 ⟨by simp, hy, by simp⟩
            | (intro a ha; cases a <;> first | exact absurd rfl ha | rfl | simp [IVec3.get])
            | rfl
      · have e1 : x = 1 := hD .X (by decide)
        have e2 : y = 1 := hD .Y (by decide)
        subst e1; subst e2
        obtain ⟨q, hq, e⟩ := (h4 z hz).1.1
        refine ⟨q, ?_, ?_, ?_, e⟩ <;> simp only [List.mem_cons, List.not_mem_nil, or_false] at hq <;>
          rcases hq with rfl | rfl | rfl | rfl <;>
          first
            | exact halfGrid_iff.2 ⟨by simp, by simp, hz⟩
            | (intro a ha; cases a <;> first | exact absurd rfl ha | rfl | simp [IVec3.get])
            | rfl
    · refine ⟨_, ?_, ?_, h5⟩
      · intro a; rw [octCorner_get]; rcases octOff_01 i a with e | e <;> rw [e] <;> cases a <;> simp [IVec3.get]
      · intro a; rw [octCorner_get]; rcases octOff_01 i a with e | e <;> rw [e] <;> cases a <;> simp [IVec3.get]
  · rintro ⟨h1, h2, h3, h4, h5⟩
    have he : ∀ D p, HalfGrid p → p.get D = 1 → ∃ q : IVec3, (q.get D = 0 ∨ q.get D = 2) ∧ (∀ a, a ≠ D → q.get a = p.get a) ∧ M p = M q := by
      intro D p hp hD
      obtain ⟨q, a1, a2, a3, a4⟩ := h3 D p hp hD
      exact ⟨q, not_one (a1 D) a2, a3, a4⟩
    have hmem : ∀ {x : Int}, x ∈ [(0 : Int), 1, 2] → x = 0 ∨ x = 1 ∨ x = 2 := by
      intro x hx; simpa using hx
    refine ⟨⟨⟨⟨h1, h2⟩, ?_⟩, ?_⟩, ?_⟩
    · intro c1 hc1 c2 hc2
      refine ⟨⟨?_, ?_⟩, ?_⟩
      · obtain ⟨⟨x, y, z⟩, b1, b2, b3⟩ := he .Y ⟨c1, 1, c2⟩ (halfGrid_iff.2 ⟨hc1, by simp, hc2⟩) rfl
        have ex : x = c1 := b2 .X (by decide)
        have ez : z = c2 := b2 .Z (by decide)
        subst ex; subst ez
        rcases b1 with b1 | b1 <;> simp only [IVec3.get] at b1 <;> subst b1
        · exact Or.inl b3
        · exact Or.inr b3
      · obtain ⟨⟨x, y, z⟩, b1, b2, b3⟩ := he .X ⟨1, c1, c2⟩ (halfGrid_iff.2 ⟨by simp, hc1, hc2⟩) rfl
        have ex : y = c1 := b2 .Y (by decide)
        have ez : z = c2 := b2 .Z (by decide)
        subst ex; subst ez
        rcases b1 with b1 | b1 <;> simp only [IVec3.get] at b1 <;> subst b1
        · exact Or.inl b3
        · exact Or.inr b3
      · obtain ⟨⟨x, y, z⟩, b1, b2, b3⟩ := he .Z ⟨c2, c1, 1⟩ (halfGrid_iff.2 ⟨hc2, hc1, by simp⟩) rfl
        have ex : x = c2 := b2 .X (by decide)
        have ez : y = c1 := b2 .Y (by decide)
        subst ex; subst ez
        rcases b1 with b1 | b1 <;> simp only [IVec3.get] at b1 <;> subst b1
        · exact Or.inl b3
        · exact Or.inr b3
    · intro c1 hc1
      refine ⟨⟨?_, ?_⟩, ?_⟩
      · obtain ⟨⟨x, y, z⟩, a1, a2, a3, a4⟩ := h4 .Z ⟨1, 1, c1⟩ (halfGrid_iff.2 ⟨by simp, by simp, hc1⟩) (by
          intro a ha; cases a <;> first | exact absurd rfl ha | rfl)
        have ex := not_one (a1 .X) (a2 .X (by decide))
        have ey := not_one (a1 .Y) (a2 .Y (by decide))
        have ez : z = c1 := a3
        subst ez
        refine ⟨_, ?_, a4⟩
        simp only [IVec3.get] at ex ey
        rcases ex with rfl | rfl <;> rcases ey with rfl | rfl <;> simp
      · obtain ⟨⟨x, y, z⟩, a1, a2, a3, a4⟩ := h4 .X ⟨c1, 1, 1⟩ (halfGrid_iff.2 ⟨hc1, by simp, by simp⟩) (by
          intro a ha; cases a <;> first | exact absurd rfl ha | rfl)
        have ex := not_one (a1 .Y) (a2 .Y (by decide))
        have ey := not_one (a1 .Z) (a2 .Z (by decide))
        have ez : x = c1 := a3
        subst ez
        refine ⟨_, ?_, a4⟩
        simp only [IVec3.get] at ex ey
        rcases ex with rfl | rfl <;> rcases ey with rfl | rfl <;> simp
      · obtain ⟨⟨x, y, z⟩, a1, a2, a3, a4⟩ := h4 .Y ⟨1, c1, 1⟩ (halfGrid_iff.2 ⟨by simp, hc1, by simp⟩) (by
          intro a ha; cases a <;> first | exact absurd rfl ha | rfl)
        have ex := not_one (a1 .X) (a2 .X (by decide))
        have ey := not_one (a1 .Z) (a2 .Z (by decide))
        have ez : y = c1 := a3
        subst ez
        refine ⟨_, ?_, a4⟩
        simp only [IVec3.get] at ex ey
        rcases ex with rfl | rfl <;> rcases ey with rfl | rfl <;> simp
    · obtain ⟨⟨x, y, z⟩, a1, a2, a3⟩ := h5
      have ex := not_one (a1 .X) (a2 .X)
      have ey := not_one (a1 .Y) (a2 .Y)
      have ez := not_one (a1 .Z) (a2 .Z)
      simp only [IVec3.get] at ex ey ez
      rcases ex with rfl | rfl <;> rcases ey with rfl | rfl <;> rcases ez with rfl | rfl
      · exact ⟨0, a3⟩
      · exact ⟨1, a3⟩
      · exact ⟨4, a3⟩
      · exact ⟨5, a3⟩
      · exact ⟨2, a3⟩
      · exact ⟨3, a3⟩
      · exact ⟨6, a3⟩
      · exact ⟨7, a3⟩

end Isomesh
