import Verif.Spec.DcOctree
import Verif.Proofs.OctreeLeaves
import Verif.Proofs.UniformDC2
import Verif.Props.QefSolve

/-! The tree built by `DC_Octree::build`: partial correctness. -/

namespace Isomesh
open Spec

set_option linter.unusedSectionVars false
variable {K : Type} [Add K] [_root_.Sub K] [Mul K] [Div K] [Neg K] [Zero K] [One K] [OfNat K 2] [OfScientific K] [NatCast K] [IntCast K]
  [Fabs K] [Elem K] [LinearOrder K] [RoundedLaws K]

/-! ### `threadM` -/

theorem threadM_spec {S α : Type} (I : S → Prop) : ∀ (n : Nat) (b : Fin n → S → Option (S × α)),
    (∀ i s s' a, I s → b i s = some (s', a) → I s') → ∀ {s s' : S} {r : Fin n → α}, I s → threadM n b s = some (s', r) →
    I s' ∧ ∀ i, ∃ t t', I t ∧ b i t = some (t', r i) := by
  intro n
  induction n with
  | zero => intro b _ s s' r hs h; cases h; exact ⟨hs, fun i => i.elim0⟩
  | succ n ih =>
    intro b hb s s' r hs h
    rw [threadM] at h
    split at h
    · cases h
    rename_i s1 a h1
    split at h
    · cases h
    rename_i s2 r' h2
    cases h
    obtain ⟨h3, h4⟩ := ih (fun i => b i.succ) (fun i => hb i.succ) (hb 0 _ _ _ hs h1) h2
    refine ⟨h3, fun i => ?_⟩
    refine Fin.cases ?_ (fun i => ?_) i
    · exact ⟨s, s1, hs, h1⟩
    · exact h4 i

theorem threadM_total {S α : Type} (I : S → Prop) : ∀ (n : Nat) (Q : Fin n → α → Prop) (b : Fin n → S → Option (S × α)),
    (∀ i s, I s → ∃ s' a, b i s = some (s', a) ∧ I s' ∧ Q i a) → ∀ {s : S}, I s →
    ∃ s' r, threadM n b s = some (s', r) ∧ I s' ∧ ∀ i, Q i (r i) := by
  intro n
  induction n with
  | zero => intro Q b _ s hs; exact ⟨s, _, rfl, hs, fun i => i.elim0⟩
  | succ n ih =>
    intro Q b hb s hs
    obtain ⟨s1, a, h1, i1, q1⟩ := hb 0 s hs
    obtain ⟨s2, r, h2, i2, q2⟩ := ih (fun i => Q i.succ) (fun i => b i.succ) (fun i => hb i.succ) i1
    refine ⟨s2, Fin.cons (α := fun _ => α) a r, ?_, i2, fun i => ?_⟩
    · rw [threadM, h1]; simp only [h2]
    · refine Fin.cases ?_ (fun i => ?_) i
      · exact q1
      · exact q2 i

/-! ### Lattice points of a cube -/

theorem cubeClosed_iff {c : Cube} {p : IVec3} : c.Closed p ↔ ∀ a, c.lo.get a ≤ p.get a ∧ p.get a ≤ c.lo.get a + c.side :=
  ⟨fun h a => by cases a; exacts [h.1, h.2.1, h.2.2], fun h => ⟨h .X, h .Y, h .Z⟩⟩

theorem cornerOff_eq (i : Fin 8) : cornerOff i = octOff i := by revert i; decide

theorem childCorner_eq (lo : IVec3) (k : Nat) (i : Fin 8) : childCorner lo k i = octCorner lo (2 ^ k) i := by
  unfold childCorner octCorner
  rw [cornerOff_eq]

theorem octCorner_zero (lo : IVec3) (s : Int) : octCorner lo s 0 = lo := by
  simp [octCorner, octOff]

theorem corner_closed (c : Cube) (i : Fin 8) : c.Closed (octCorner c.lo c.side i) := by
  rw [cubeClosed_iff]
  intro a
  have := side_pos c
  rw [octCorner_get]
  rcases octOff_01 i a with e | e <;> rw [e] <;> omega

theorem lo_closed (c : Cube) : c.Closed c.lo := by
  have := corner_closed c 0
  rwa [octCorner_zero] at this

/-- A closed cube is the union of its closed octants. -/
theorem closed_octant {o p : IVec3} {k : Nat} (h : Cube.Closed ⟨o, k + 1⟩ p) :
    ∃ i, Cube.Closed ⟨octCorner o (2 ^ k) i, k⟩ p := by
  rw [cubeClosed_iff] at h
  simp only [Cube.side, two_pow_succ'] at h
  let g : Axis → Int := fun a => if p.get a < o.get a + 2 ^ k then 0 else 1
  have hg : ∀ a, g a ∈ [(0 : Int), 1] := by intro a; simp only [g]; split <;> simp
  obtain ⟨i, hx, hy, hz⟩ := octOff_surjective _ (hg .X) _ (hg .Y) _ (hg .Z)
  have hi : ∀ a, (octOff i).get a = g a := by intro a; cases a; exacts [hx, hy, hz]
  refine ⟨i, ?_⟩
  rw [cubeClosed_iff]
  intro a
  have := h a
  simp only [octCorner_get, hi, g, Cube.side]
  split <;> omega

theorem closed_sub {a b : Cube} (h : a.Sub b) {p : IVec3} (hp : a.Closed p) : b.Closed p := by
  rw [cubeSub_iff] at h
  rw [cubeClosed_iff] at *
  intro x
  have := h x
  have := hp x
  omega

/-- The corners of the octants. -/
theorem octant_corner (o : IVec3) (s : Int) (i j : Fin 8) :
    octCorner (octCorner o s i) s j =
      ⟨o.x + s * ((cornerOff i).plus (cornerOff j)).x, o.y + s * ((cornerOff i).plus (cornerOff j)).y,
       o.z + s * ((cornerOff i).plus (cornerOff j)).z⟩ := by
  rw [cornerOff_eq, cornerOff_eq]
  simp only [octCorner, IVec3.plus, IVec3.mk.injEq]
  refine ⟨by ring, by ring, by ring⟩

/-! ### Materials -/

/-- The material at a lattice point (`Empty` outside the grid). -/
noncomputable def matAt (g : Grid K) (p : IVec3) : Material := (g.at p).getD .Empty

theorem solid_iff (g : Grid K) (p : IVec3) : solidAt g p = decide (matAt g p ≠ .Empty) := by
  unfold solidAt matAt
  cases g.at p <;> simp

theorem matAt_of {g : Grid K} {p : IVec3} {m : Material} (h : g.at p = some m) : matAt g p = m := by
  unfold matAt; rw [h]; rfl

theorem solid_of {g : Grid K} {p : IVec3} {m : Material} (h : g.at p = some m) : solidAt g p = decide (m ≠ .Empty) := by
  rw [solid_iff, matAt_of h]

/-! ### The invariant -/

/-- Facts on a leaf occupying the cube `c`. -/
structure LeafOK (g : Grid K) (c : Cube) (l : DcLeaf K) : Prop where
  corners : ∀ i, g.at (octCorner c.lo c.side i) = some (l.corners i)
  homog : l.homogeneous = true → ∀ p, c.Closed p → solidAt g p = solidAt g c.lo
  dual : l.homogeneous = false → ∃ d, l.dual = some d ∧ c.ClosedR d.vertex

/-- Facts on a tree occupying the cube `c` at depth `depth`. -/
def TreeOK (g : Grid K) : DcNode K → Cube → Nat → Prop
  | .leaf l, c, depth => LeafOK g c l ∧ l.depth = depth
  | .inner d ch, c, depth => 0 < c.k ∧ d = depth ∧ ∀ i, TreeOK g (ch i) (c.octant i) (depth + 1)

theorem homogeneous_iff {g : Grid K} {c : Cube} {l : DcLeaf K} (h : ∀ i, g.at (octCorner c.lo c.side i) = some (l.corners i)) :
    l.homogeneous = true ↔ ¬ Hetero g c := by
  unfold DcLeaf.homogeneous Hetero
  rw [Bool.or_eq_true, decide_eq_true_eq, decide_eq_true_eq]
  simp only [solid_of (h _), not_exists, not_not]
  constructor
  · rintro (h | h) i j <;> simp [h]
  · intro hh
    by_cases h0 : l.corners 0 = .Empty
    · left; intro i; have := hh i 0; simpa [h0] using this
    · right; intro i; have := hh i 0; simpa [h0] using this

theorem hetero_false {l : DcLeaf K} : l.homogeneous = false ↔ ¬ l.homogeneous = true := by simp

/-! ### Collapsing -/

theorem dcLeafChildren_some {ch : Fin 8 → DcNode K} {l : Fin 8 → DcLeaf K} (h : dcLeafChildren ch = some l) :
    ∀ i, ch i = .leaf (l i) := by
  unfold dcLeafChildren at h
  split at h
  · rename_i hh
    cases h
    have key : ∀ (n : DcNode K) (h : (dcLeafOf n).isSome = true), n = .leaf ((dcLeafOf n).get h) := by
      intro n h
      cases n with
      | leaf d => rfl
      | inner d ch => cases h
    exact fun i => key _ (hh i)
  · cases h

/-- The fold that fills the cube of materials, when all writes agree. -/
theorem dcCubeMats_eq {l : Fin 8 → DcLeaf K} {M : IVec3 → Material}
    (h : ∀ i j, (l i).corners j = M ((cornerOff i).plus (cornerOff j))) (i j : Fin 8) :
    dcCubeMats l ((cornerOff i).plus (cornerOff j)) = M ((cornerOff i).plus (cornerOff j)) := by
  have inner : ∀ (i : Fin 8) (js : List (Fin 8)) (m : CubeMats) (p : IVec3),
      (m p = M p ∨ ∃ j ∈ js, p = (cornerOff i).plus (cornerOff j)) →
      js.foldl (fun m j => fun p => if p = (cornerOff i).plus (cornerOff j) then (l i).corners j else m p) m p = M p := by
    intro i js
    induction js with
    | nil => rintro m p (h | ⟨j, hj, -⟩); exacts [h, absurd hj (by simp)]
    | cons j js ih =>
      intro m p hp
      rw [List.foldl_cons]
      apply ih
      by_cases e : p = (cornerOff i).plus (cornerOff j)
      · left; rw [if_pos e, h, e]
      · rcases hp with hp | ⟨j', hj', hp⟩
        · left; rw [if_neg e, hp]
        · rcases List.mem_cons.1 hj' with rfl | hj'
          · exact absurd hp e
          · exact Or.inr ⟨j', hj', hp⟩
  have outer : ∀ (is : List (Fin 8)) (m : CubeMats) (p : IVec3),
      (m p = M p ∨ ∃ i ∈ is, ∃ j, p = (cornerOff i).plus (cornerOff j)) →
      is.foldl (fun m i => (List.finRange 8).foldl
        (fun m j => fun p => if p = (cornerOff i).plus (cornerOff j) then (l i).corners j else m p) m) m p = M p := by
    intro is
    induction is with
    | nil => rintro m p (h | ⟨i, hi, -⟩); exacts [h, absurd hi (by simp)]
    | cons i is ih =>
      intro m p hp
      rw [List.foldl_cons]
      apply ih
      rcases hp with hp | ⟨i', hi', j, hp⟩
      · exact Or.inl (inner i _ m p (Or.inl hp))
      · rcases List.mem_cons.1 hi' with rfl | hi'
        · exact Or.inl (inner i' _ m p (Or.inr ⟨j, List.mem_finRange j, hp⟩))
        · exact Or.inr ⟨i', hi', j, hp⟩
  exact outer _ _ _ (Or.inr ⟨i, List.mem_finRange i, j, rfl⟩)

theorem sums_of_corners : ∀ x ∈ [(0 : Int), 1, 2], ∀ y ∈ [(0 : Int), 1, 2], ∀ z ∈ [(0 : Int), 1, 2],
    ∃ i j : Fin 8, (cornerOff i).plus (cornerOff j) = ⟨x, y, z⟩ := by decide +kernel

theorem corner_sums : ∀ i j : Fin 8, ((cornerOff i).plus (cornerOff j)).x ∈ [(0 : Int), 1, 2] ∧
    ((cornerOff i).plus (cornerOff j)).y ∈ [(0 : Int), 1, 2] ∧ ((cornerOff i).plus (cornerOff j)).z ∈ [(0 : Int), 1, 2] := by
  decide +kernel

theorem double_corner : ∀ x ∈ [(0 : Int), 2], ∀ y ∈ [(0 : Int), 2], ∀ z ∈ [(0 : Int), 2],
    ∃ i : Fin 8, (cornerOff i).plus (cornerOff i) = ⟨x, y, z⟩ := by decide +kernel

/-- A topologically safe cube whose eight corners are on one side of the surface is on this side entirely. -/
theorem topo_uniform {mats : CubeMats} (h : dcTopoSafety mats = true) (b : Prop)
    (hc : ∀ i : Fin 8, mats ((cornerOff i).plus (cornerOff i)) = .Empty ↔ b) :
    ∀ i j : Fin 8, mats ((cornerOff i).plus (cornerOff j)) = .Empty ↔ b := by
  unfold dcTopoSafety at h
  simp only [Bool.and_eq_true, List.all_eq_true] at h
  obtain ⟨⟨⟨-, he⟩, -⟩, -⟩ := h
  -- along each line of three points
  have hX : ∀ y ∈ [(0 : Int), 1, 2], ∀ z ∈ [(0 : Int), 1, 2],
      mats ⟨1, y, z⟩ = mats ⟨0, y, z⟩ ∨ mats ⟨1, y, z⟩ = mats ⟨2, y, z⟩ := by
    intro y hy z hz
    have := (he y hy z hz).1.2
    by_contra hh
    rw [not_or] at hh
    simp [hh.1, hh.2] at this
  have hY : ∀ x ∈ [(0 : Int), 1, 2], ∀ z ∈ [(0 : Int), 1, 2],
      mats ⟨x, 1, z⟩ = mats ⟨x, 0, z⟩ ∨ mats ⟨x, 1, z⟩ = mats ⟨x, 2, z⟩ := by
    intro x hx z hz
    have := (he x hx z hz).1.1
    by_contra hh
    rw [not_or] at hh
    simp [hh.1, hh.2] at this
  have hZ : ∀ x ∈ [(0 : Int), 1, 2], ∀ y ∈ [(0 : Int), 1, 2],
      mats ⟨x, y, 1⟩ = mats ⟨x, y, 0⟩ ∨ mats ⟨x, y, 1⟩ = mats ⟨x, y, 2⟩ := by
    intro x hx y hy
    have := (he y hy x hx).2
    by_contra hh
    rw [not_or] at hh
    simp [hh.1, hh.2] at this
  have k0 : ∀ x ∈ [(0 : Int), 2], ∀ y ∈ [(0 : Int), 2], ∀ z ∈ [(0 : Int), 2], mats ⟨x, y, z⟩ = .Empty ↔ b := by
    intro x hx y hy z hz
    obtain ⟨i, hi⟩ := double_corner x hx y hy z hz
    rw [← hi]; exact hc i
  have up : ∀ x ∈ [(0 : Int), 2], x ∈ [(0 : Int), 1, 2] := by simp
  have split : ∀ x ∈ [(0 : Int), 1, 2], x ∈ [(0 : Int), 2] ∨ x = 1 := by
    intro x hx
    simp only [List.mem_cons, List.not_mem_nil, or_false] at hx ⊢
    tauto
  have k1 : ∀ x ∈ [(0 : Int), 1, 2], ∀ y ∈ [(0 : Int), 2], ∀ z ∈ [(0 : Int), 2], mats ⟨x, y, z⟩ = .Empty ↔ b := by
    intro x hx y hy z hz
    rcases split x hx with h | rfl
    · exact k0 x h y hy z hz
    · rcases hX y (up y hy) z (up z hz) with e | e <;> rw [e]
      · exact k0 0 (by simp) y hy z hz
      · exact k0 2 (by simp) y hy z hz
  have k2 : ∀ x ∈ [(0 : Int), 1, 2], ∀ y ∈ [(0 : Int), 1, 2], ∀ z ∈ [(0 : Int), 2], mats ⟨x, y, z⟩ = .Empty ↔ b := by
    intro x hx y hy z hz
    rcases split y hy with h | rfl
    · exact k1 x hx y h z hz
    · rcases hY x hx z (up z hz) with e | e <;> rw [e]
      · exact k1 x hx 0 (by simp) z hz
      · exact k1 x hx 2 (by simp) z hz
  have k3 : ∀ x ∈ [(0 : Int), 1, 2], ∀ y ∈ [(0 : Int), 1, 2], ∀ z ∈ [(0 : Int), 1, 2], mats ⟨x, y, z⟩ = .Empty ↔ b := by
    intro x hx y hy z hz
    rcases split z hz with h | rfl
    · exact k2 x hx y hy z h
    · rcases hZ x hx y hy with e | e <;> rw [e]
      · exact k2 x hx y hy 0 (by simp)
      · exact k2 x hx y hy 2 (by simp)
  intro i j
  obtain ⟨h1, h2, h3⟩ := corner_sums i j
  exact k3 _ h1 _ h2 _ h3

end Isomesh
