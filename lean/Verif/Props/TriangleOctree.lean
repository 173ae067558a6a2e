import Verif.Proofs.TriNear
import Mathlib.Tactic.NormNum

/-! Properties C41 (triangle octree keeps the inserted triangles), C42 (nearest triangle), C43 (point to triangle distance). -/

namespace Isomesh

noncomputable section
open scoped Classical

/-! ### C43 -/

/-- C43: the reported squared distance is that of a nearest point of the filled triangle. -/
theorem C43_distance (T : Tri) (hT : T.Proper) (P : Vec3 ℝ) :
    ∃ K, T.Mem K ∧ (∀ Q, T.Mem Q → sqDist P K ≤ sqDist P Q) ∧ (triDistance P T).1 = sqDist P K := by
  obtain ⟨K, hK, h⟩ := triDistance_nearest hT P
  exact ⟨K, hK.1, hK.2, by rw [h]; rfl⟩

/-- A point of the triangle is in the plane orthogonal to the normal. -/
theorem mem_normal {T : Tri} (hT : T.Proper) {K : Vec3 ℝ} (hK : T.Mem K) (P : Vec3 ℝ) : (P.sub K).dot T.normal = (P.sub T.a).dot T.normal := by
  obtain ⟨s, t, _, _, _, rfl⟩ := hK
  obtain ⟨hmk, _⟩ := hT
  rw [hmk]
  simp only [Tri.make, unitVec, triPoint, Vec3.sub, Vec3.dot, Vec3.cross]
  ring

/-- C43: the reported sign is positive exactly when the point is strictly on the side of the plane to which the normal
`(a - b) × (a - c)` points, and negative otherwise. -/
theorem C43_sign (T : Tri) (hT : T.Proper) (P : Vec3 ℝ) :
    ((triDistance P T).2 = 1 ∧ 0 < (P.sub T.a).dot ((T.a.sub T.b).cross (T.a.sub T.c))) ∨
    ((triDistance P T).2 = -1 ∧ (P.sub T.a).dot ((T.a.sub T.b).cross (T.a.sub T.c)) ≤ 0) := by
  obtain ⟨K, hK, h⟩ := triDistance_nearest hT P
  have hn := mem_normal hT hK.1 P
  have hpos : 0 < Real.sqrt (((T.a.sub T.b).cross (T.a.sub T.c)).dot ((T.a.sub T.b).cross (T.a.sub T.c))) := by
    apply Real.sqrt_pos.mpr
    have := vec_sq_pos hT.2
    have e : ((T.a.sub T.b).cross (T.a.sub T.c)).dot ((T.a.sub T.b).cross (T.a.sub T.c))
        = ((T.b.sub T.a).cross (T.c.sub T.a)).dot ((T.b.sub T.a).cross (T.c.sub T.a)) := by
      simp only [Vec3.dot, Vec3.cross, Vec3.sub]; ring
    rw [e]; exact this
  have e : (P.sub T.a).dot T.normal = (P.sub T.a).dot ((T.a.sub T.b).cross (T.a.sub T.c)) /
      Real.sqrt (((T.a.sub T.b).cross (T.a.sub T.c)).dot ((T.a.sub T.b).cross (T.a.sub T.c))) := by
    have lin : ∀ (u m : Vec3 ℝ) (L : ℝ), u.dot ⟨m.x / L, m.y / L, m.z / L⟩ = u.dot m / L := by
      intro u m L; simp only [Vec3.dot]; ring
    conv_lhs => rw [hT.1]
    exact lin _ _ _
  rw [h]
  unfold triOut
  dsimp only
  rw [hn, e]
  by_cases c : 0 < (P.sub T.a).dot ((T.a.sub T.b).cross (T.a.sub T.c))
  · left; exact ⟨if_pos (div_pos c hpos), c⟩
  · right
    push Not at c
    refine ⟨if_neg ?_, c⟩
    rw [not_lt]
    exact div_nonpos_of_nonpos_of_nonneg c hpos.le

/-- The triangle `(0,0,0), (1,0,0), (0,1,0)`. -/
def demoTri : Tri := Tri.make ⟨0, 0, 0⟩ ⟨1, 0, 0⟩ ⟨0, 1, 0⟩

theorem proper_make {a b c : Vec3 ℝ} (h : (b.sub a).cross (c.sub a) ≠ ⟨0, 0, 0⟩) : (Tri.make a b c).Proper := ⟨rfl, h⟩

theorem demoTri_proper : demoTri.Proper := by
  apply proper_make
  simp [Vec3.cross, Vec3.sub]

/-- The point `(2, 0, 3)` is at squared distance 10 from the triangle, on its positive side. -/
example : triDistance ⟨2, 0, 3⟩ demoTri = (10, 1) := by
  obtain ⟨K, ⟨s, t, h1, h2, h3, rfl⟩, hm, h⟩ := C43_distance demoTri demoTri_proper ⟨2, 0, 3⟩
  have hs := C43_sign demoTri demoTri_proper ⟨2, 0, 3⟩
  have hb := hm ⟨1, 0, 0⟩ ⟨1, 0, by norm_num, by norm_num, by norm_num, by simp [triPoint, demoTri, Tri.make]⟩
  refine Prod.ext ?_ ?_
  · dsimp only
    rw [h]
    simp only [sqDist, triPoint, demoTri, Tri.make] at hb ⊢
    nlinarith
  · rcases hs with hs | hs
    · exact hs.1
    · exfalso
      have := hs.2
      simp [demoTri, Tri.make, Vec3.cross, Vec3.sub, Vec3.dot] at this
      linarith

/-! ### C41 -/

/-- C41: inserting never fails. -/
theorem C41_total (half : ℝ) (pos : Vec3 ℝ) (l : List Tri) : ∃ t, TriTree.build half pos l = some t := by
  obtain ⟨t, h, _⟩ := triBuild_ok half pos l
  exact ⟨t, h⟩

/-- C41: while at most sixty triangles are inserted, all of them are stored, in their order, in one leaf. -/
theorem C41_small (half : ℝ) (pos : Vec3 ℝ) (l : List Tri) (h : l.length ≤ 60) :
    ∃ t, TriTree.build half pos l = some t ∧ t.leaves = [(pos, half, 0, l)] := by
  exact ⟨_, build_small half pos l h, by simp [TriTree.leaves]⟩

/-- C41 (part that holds): an insertion keeps all the stored triangles, adds nothing but the new triangle, and adds it
exactly when some place it goes to has room.  Missing: the new triangle is always stored (see `C41_lost`). -/
theorem C41_insert_partial (half : ℝ) (pos : Vec3 ℝ) (l : List Tri) (t : TriTree) (ht : TriTree.build half pos l = some t) (x : Tri) :
    ∃ t', t.insert x = some t' ∧ ∀ y, t'.Stored y ↔ t.Stored y ∨ (y = x ∧ t.HasRoom x) := by
  obtain ⟨t0, h1, h2, h3⟩ := triBuild_ok half pos l
  rw [ht] at h1
  obtain rfl := Option.some.inj h1
  exact ⟨_, insert_eq h3 h2 x, fun y => ins_stored h2 x y⟩

theorem foldl_ins_stored {x : Tri} : ∀ (l : List Tri) (t : TriTree), t ≠ .null → x ∉ l → ¬ t.Stored x →
    ¬ (l.foldl (fun t x => t.ins x) t).Stored x
  | [], _, _, _, h => h
  | y :: l, t, hn, hx, h => by
    rw [List.foldl_cons]
    rw [List.mem_cons, not_or] at hx
    apply foldl_ins_stored l _ (ins_ne_null hn y) hx.2
    rw [ins_stored hn]
    rintro (h' | ⟨h', _⟩)
    · exact h h'
    · exact hx.1 h'

/-- C41, refuted: the sixty-first triangle is lost, and stays lost whatever other triangles follow. -/
theorem C41_lost (half : ℝ) (pos : Vec3 ℝ) (l : List Tri) (hl : l.length = 60) (x : Tri) (hx : x ∉ l) (rest : List Tri) (hr : x ∉ rest) :
    ∃ t, TriTree.build half pos (l ++ x :: rest) = some t ∧ ¬ t.Stored x := by
  have hb := build_small half pos l (by omega)
  refine ⟨_, build_append half pos l hb (x :: rest), ?_⟩
  rw [List.foldl_cons]
  apply foldl_ins_stored _ _ (ins_ne_null (by simp) x) hr
  rw [ins_stored (by simp), stored_leaf, TriTree.HasRoom]
  rintro (h | ⟨_, h⟩)
  · exact hx h
  · omega

/-- The hypotheses of `C41_lost` are met by a mesh of sixty equal triangles and another one. -/
example : ∃ t, TriTree.build 8 ⟨0, 0, 0⟩ (List.replicate 60 demoTri ++ [Tri.make ⟨0, 0, 1⟩ ⟨1, 0, 1⟩ ⟨0, 1, 1⟩]) = some t ∧
    ¬ t.Stored (Tri.make ⟨0, 0, 1⟩ ⟨1, 0, 1⟩ ⟨0, 1, 1⟩) := by
  apply C41_lost _ _ _ (by simp) _ _ [] (by simp)
  intro h
  have := (List.mem_replicate.mp h).2
  simp [demoTri, Tri.make] at this

/-- C41: no leaf is deeper than level fifteen, a leaf above that depth has at most sixty triangles, the size of a leaf is
that of the root halved once per level, and its box is inside that of the root. -/
theorem C41_shape (half : ℝ) (hh : 0 ≤ half) (pos : Vec3 ℝ) (l : List Tri) (t : TriTree) (ht : TriTree.build half pos l = some t)
    (pos' : Vec3 ℝ) (half' : ℝ) (level : Nat) (tris : List Tri) (hm : (pos', half', level, tris) ∈ t.leaves) :
    level ≤ 15 ∧ (tris.length ≤ 60 ∨ level = 15) ∧ half' = half / 2 ^ level ∧ ∀ q, InBox pos' half' q → InBox pos half q := by
  obtain ⟨t0, h1, -, h3⟩ := triBuild_ok half pos l
  rw [ht] at h1
  obtain rfl := Option.some.inj h1
  have key : ∀ (t : TriTree) (p : Vec3 ℝ) (h : ℝ) (lv : Nat), t.Boxed p h lv → 0 ≤ h → (pos', half', level, tris) ∈ t.leaves →
      lv ≤ level ∧ level ≤ 15 ∧ (tris.length ≤ 60 ∨ level = 15) ∧ half' = h / 2 ^ (level - lv) ∧ ∀ q, InBox pos' half' q → InBox p h q := by
    intro t
    induction t with
    | null => intro p h lv _ _ hm; simp [TriTree.leaves] at hm
    | leaf p' h' lv' ts =>
      intro p h lv hb h0 hm
      obtain ⟨rfl, rfl, rfl, h4, h5⟩ := hb
      simp only [TriTree.leaves, List.mem_singleton, Prod.mk.injEq] at hm
      obtain ⟨rfl, rfl, rfl, rfl⟩ := hm
      refine ⟨le_rfl, h4, ?_, by simp, fun q hq => hq⟩
      omega
    | inner p' h' lv' ch ih =>
      intro p h lv hb h0 hm
      obtain ⟨rfl, rfl, rfl, h4, h5⟩ := hb
      simp only [TriTree.leaves, List.mem_flatMap] at hm
      obtain ⟨i, _, hm⟩ := hm
      obtain ⟨k1, k2, k3, k4, k5⟩ := ih i _ _ _ (h5 i) (by linarith) hm
      refine ⟨by omega, k2, k3, ?_, fun q hq => inBox_of_sub h0 (k5 q hq)⟩
      rw [k4, div_div, ← pow_succ']
      congr 2
      omega
  obtain ⟨_, k2, k3, k4, k5⟩ := key t pos half 0 h3 hh hm
  exact ⟨k2, k3, by simpa using k4, k5⟩

/-- C41: a triangle whose corner's leaf has room is stored there, and after any further insertions there still is a leaf
that stores the triangle and contains that corner. -/
theorem C41_corner (half : ℝ) (pos : Vec3 ℝ) (l : List Tri) (t : TriTree) (ht : TriTree.build half pos l = some t) (x : Tri)
    (p : Vec3 ℝ) (hp : x.Corner p) (hbox : InBox pos half p)
    (hr : t.descend p = .null ∨ ∃ pos' half' level tris, t.descend p = .leaf pos' half' level tris ∧ (tris.length < 60 ∨ 15 ≤ level))
    (rest : List Tri) :
    ∃ t', TriTree.build half pos (l ++ x :: rest) = some t' ∧ ∃ pos' half', t'.StoredIn x pos' half' ∧ InBox pos' half' p := by
  obtain ⟨t0, h1, h2, h3⟩ := triBuild_ok half pos l
  rw [ht] at h1
  obtain rfl := Option.some.inj h1
  have hroom : NodeRoom (t.descend p) := by
    rcases hr with h | ⟨_, _, _, _, h, h'⟩
    · rw [h]; trivial
    · rw [h]; exact h'
  have h4 := ins_atLeaf_new h2 hp hroom
  refine ⟨_, build_append half pos l ht (x :: rest), ?_⟩
  rw [List.foldl_cons]
  have key : ∀ (rest : List Tri) (t : TriTree), AtLeaf t x p → t.Boxed pos half 0 →
      AtLeaf (rest.foldl (fun t x => t.ins x) t) x p ∧ (rest.foldl (fun t x => t.ins x) t).Boxed pos half 0 := by
    intro rest
    induction rest with
    | nil => intro t a b; exact ⟨a, b⟩
    | cons y rest ih => intro t a b; exact ih _ (ins_atLeaf hp a) (ins_boxed b y)
  obtain ⟨k1, k2⟩ := key rest _ h4 (ins_boxed h3 x)
  exact atLeaf_storedIn k2 hbox k1

/-! ### C42 -/

/-- C42: `distanceToNode` is the squared distance from the point to the box of the node. -/
theorem C42_node_distance (pos : Vec3 ℝ) (half : ℝ) (hh : 0 ≤ half) (p : Vec3 ℝ) :
    (∃ q, InBox pos half q ∧ distanceToNode pos half p = sqDist p q) ∧ ∀ q, InBox pos half q → distanceToNode pos half p ≤ sqDist p q :=
  ⟨distanceToNode_attained hh p, fun _ h => distanceToNode_le h⟩

/-- C42: the answer is a stored triangle with its distance and sign, or the initial one if nothing was found. -/
theorem C42_source (highest : ℝ) (junk : Tri) (t : TriTree) (p : Vec3 ℝ) :
    t.nearTriangle highest junk p = (junk, Real.sqrt highest, 0) ∨
    ∃ x, t.Stored x ∧ t.nearTriangle highest junk p = (x, Real.sqrt (triDistance p x).1, (triDistance p x).2) := by
  unfold TriTree.nearTriangle
  rcases near_source p t ⟨highest, junk, 0⟩ with h | ⟨x, hx, h⟩
  · left; rw [h]
  · right; exact ⟨x, hx, by rw [h]⟩

/-- C42: the reported distance is at most the larger of the distance to a stored triangle and to any point of a box in
which it is stored; in particular at most the distance to a corner of a triangle that lies in its leaf. -/
theorem C42_bound (half : ℝ) (hh : 0 ≤ half) (pos : Vec3 ℝ) (l : List Tri) (t : TriTree) (ht : TriTree.build half pos l = some t)
    (highest : ℝ) (junk : Tri) (p : Vec3 ℝ) (x : Tri) (hx : x.Proper) (pos' : Vec3 ℝ) (half' : ℝ) (hs : t.StoredIn x pos' half')
    (q k : Vec3 ℝ) (hq : InBox pos' half' q) (hk : x.Mem k) :
    (t.nearTriangle highest junk p).2.1 ≤ max (Real.sqrt (sqDist p q)) (Real.sqrt (sqDist p k)) := by
  obtain ⟨t0, h1, -, h3⟩ := triBuild_ok half pos l
  rw [ht] at h1
  obtain rfl := Option.some.inj h1
  obtain ⟨K, hK, hmin, hd⟩ := C43_distance x hx p
  unfold TriTree.nearTriangle
  dsimp only
  rcases near_complete h3 hh p ⟨highest, junk, 0⟩ hs with h | h
  · exact le_max_of_le_left (Real.sqrt_le_sqrt (h.le.trans (distanceToNode_le hq)))
  · apply le_max_of_le_right
    apply Real.sqrt_le_sqrt
    refine le_trans ?_ (hmin k hk)
    rw [← hd]
    rcases h with h | ⟨h, _⟩
    · exact h.le
    · exact h.le

/-- C42: if some triangle of the tree is nearest to the query point and its nearest point is in a box in which it is
stored, then the answer is a nearest triangle: its distance is the least distance to any point of any stored triangle. -/
theorem C42_exact_partial (half : ℝ) (hh : 0 ≤ half) (pos : Vec3 ℝ) (l : List Tri) (t : TriTree) (ht : TriTree.build half pos l = some t)
    (hp : ∀ y, t.Stored y → y.Proper)
    (highest : ℝ) (junk : Tri) (p : Vec3 ℝ) (x : Tri) (pos' : Vec3 ℝ) (half' : ℝ) (hs : t.StoredIn x pos' half')
    (k : Vec3 ℝ) (hk : x.Mem k) (hb : InBox pos' half' k) (hfin : sqDist p k < highest)
    (hmin : ∀ y q, t.Stored y → y.Mem q → sqDist p k ≤ sqDist p q) :
    ∃ y, t.Stored y ∧ (t.nearTriangle highest junk p).1 = y ∧ (t.nearTriangle highest junk p).2.1 = Real.sqrt (sqDist p k) ∧
      (∃ K, y.Mem K ∧ sqDist p K = sqDist p k) ∧ (t.nearTriangle highest junk p).2.2 = (triDistance p y).2 := by
  have ub := C42_bound half hh pos l t ht highest junk p x (hp x ⟨_, _, hs⟩) pos' half' hs k k hb hk
  rw [max_self] at ub
  rcases C42_source highest junk t p with h | ⟨y, hy, h⟩
  · exfalso
    rw [h] at ub
    dsimp only at ub
    have h0 : 0 ≤ sqDist p k := by unfold sqDist; positivity
    have := Real.sqrt_lt_sqrt h0 hfin
    linarith
  · obtain ⟨K, hK, _, hd⟩ := C43_distance y (hp y hy) p
    rw [h] at ub
    dsimp only at ub
    have h0 : 0 ≤ sqDist p k := by unfold sqDist; positivity
    have hle : sqDist p K ≤ sqDist p k := by
      rw [← hd]
      by_contra hc
      push Not at hc
      have := Real.sqrt_lt_sqrt h0 hc
      linarith
    have he : sqDist p K = sqDist p k := le_antisymm hle (hmin y K hy hK)
    refine ⟨y, hy, by rw [h], ?_, ⟨K, hK, he⟩, by rw [h]⟩
    rw [h]
    dsimp only
    rw [hd, he]

/-- C42: among equally near triangles one with the point on its positive side is preferred: if a nearest stored triangle,
taken into account by the previous theorem, has positive sign, the reported sign is positive. -/
theorem C42_sign (half : ℝ) (hh : 0 ≤ half) (pos : Vec3 ℝ) (l : List Tri) (t : TriTree) (ht : TriTree.build half pos l = some t)
    (hp : ∀ y, t.Stored y → y.Proper)
    (highest : ℝ) (junk : Tri) (p : Vec3 ℝ) (x : Tri) (pos' : Vec3 ℝ) (half' : ℝ) (hs : t.StoredIn x pos' half')
    (k : Vec3 ℝ) (hk : x.Mem k) (hb : InBox pos' half' k) (hfin : sqDist p k < highest)
    (hmin : ∀ y q, t.Stored y → y.Mem q → sqDist p k ≤ sqDist p q)
    (hpos : 0 < (p.sub x.a).dot ((x.a.sub x.b).cross (x.a.sub x.c))) : (t.nearTriangle highest junk p).2.2 = 1 := by
  obtain ⟨t0, h1, -, h3⟩ := triBuild_ok half pos l
  rw [ht] at h1
  obtain rfl := Option.some.inj h1
  have hxp := hp x ⟨_, _, hs⟩
  obtain ⟨K, hK, hmK, hd⟩ := C43_distance x hxp p
  have hdk : (triDistance p x).1 = sqDist p k := by rw [hd]; exact le_antisymm (hmK k hk) (hmin x K ⟨_, _, hs⟩ hK)
  have hsg : (triDistance p x).2 = 1 := by
    rcases C43_sign x hxp p with h | h
    · exact h.1
    · exact absurd hpos (not_lt.mpr h.2)
  -- the result
  have hres : (∃ y, t.Stored y ∧ t.near p ⟨highest, junk, 0⟩ = ⟨(triDistance p y).1, y, (triDistance p y).2⟩) ∨ t.near p ⟨highest, junk, 0⟩ = ⟨highest, junk, 0⟩ := by
    rcases near_source p t ⟨highest, junk, 0⟩ with h | h
    · exact Or.inr h
    · exact Or.inl h
  have hge : sqDist p k ≤ (t.near p ⟨highest, junk, 0⟩).bound := by
    rcases hres with ⟨y, hy, h⟩ | h
    · rw [h]
      dsimp only
      obtain ⟨K', hK', _, hd'⟩ := C43_distance y (hp y hy) p
      rw [hd']
      exact hmin y K' hy hK'
    · rw [h]; exact hfin.le
  have hgood : (t.near p ⟨highest, junk, 0⟩).sign > 0 := by
    rcases near_complete h3 hh p ⟨highest, junk, 0⟩ hs with h | h
    · exact absurd (h.trans_le (distanceToNode_le hb)) (not_lt.mpr hge)
    · rw [hdk, hsg] at h
      rcases h with h | ⟨_, h⟩
      · exact absurd h (not_lt.mpr hge)
      · exact h (by norm_num)
  unfold TriTree.nearTriangle
  dsimp only
  rcases hres with ⟨y, hy, h⟩ | h
  · rw [h] at hgood ⊢
    dsimp only at hgood ⊢
    rcases C43_sign y (hp y hy) p with h | h
    · exact h.1
    · rw [h.1] at hgood; omega
  · rw [h] at hgood; simp at hgood

/-- C42: while at most sixty triangles are inserted and they are inside the root box, the answer is always a nearest triangle. -/
theorem C42_small (half : ℝ) (hh : 0 ≤ half) (pos : Vec3 ℝ) (l : List Tri) (hl : l.length ≤ 60) (hne : l ≠ [])
    (hp : ∀ y ∈ l, y.Proper) (hin : ∀ y ∈ l, ∀ q, y.Mem q → InBox pos half q) (highest : ℝ) (junk : Tri) (p : Vec3 ℝ)
    (hfin : ∀ y ∈ l, ∀ q, y.Mem q → sqDist p q < highest) :
    ∃ t, TriTree.build half pos l = some t ∧ ∃ y ∈ l, (t.nearTriangle highest junk p).1 = y ∧
      ∃ K, y.Mem K ∧ (t.nearTriangle highest junk p).2.1 = Real.sqrt (sqDist p K) ∧ (∀ z ∈ l, ∀ q, z.Mem q → sqDist p K ≤ sqDist p q) ∧
        (t.nearTriangle highest junk p).2.2 = (triDistance p y).2 := by
  have hb := build_small half pos l hl
  refine ⟨_, hb, ?_⟩
  -- a nearest triangle
  obtain ⟨x, hx, hxm⟩ : ∃ x ∈ l, ∀ y ∈ l, (triDistance p x).1 ≤ (triDistance p y).1 := by
    obtain ⟨x, hx, h⟩ := Finset.exists_min_image l.toFinset (fun y => (triDistance p y).1)
      (by obtain ⟨y, hy⟩ := List.exists_mem_of_ne_nil l hne; exact ⟨y, by simpa using hy⟩)
    exact ⟨x, by simpa using hx, fun y hy => h y (by simpa using hy)⟩
  obtain ⟨K, hK, hmK, hd⟩ := C43_distance x (hp x hx) p
  have hs : (TriTree.leaf pos half 0 l).StoredIn x pos half := ⟨0, l, by simp [TriTree.leaves], hx⟩
  have hmin : ∀ y q, (TriTree.leaf pos half 0 l).Stored y → y.Mem q → sqDist p K ≤ sqDist p q := by
    intro y q hy hq
    rw [stored_leaf] at hy
    obtain ⟨K', _, hmK', hd'⟩ := C43_distance y (hp y hy) p
    have := hxm y hy
    rw [hd, hd'] at this
    exact this.trans (hmK' q hq)
  obtain ⟨y, hy, e1, e2, ⟨K', hK', he⟩, e3⟩ := C42_exact_partial half hh pos l _ hb (fun y hy => hp y (stored_leaf.mp hy)) highest junk p x pos half hs K hK
    (hin x hx K hK) (hfin x hx K hK) hmin
  refine ⟨y, stored_leaf.mp hy, e1, K', hK', by rw [he]; exact e2, ?_, e3⟩
  intro z hz q hq
  rw [he]
  exact hmin z q (stored_leaf.mpr hz) hq

/-- The hypotheses of `C42_small` are met by the triangle `demoTri`. -/
example : ∃ t, TriTree.build 1 ⟨0, 0, 0⟩ [demoTri] = some t ∧ (t.nearTriangle 1000 demoTri ⟨2, 0, 3⟩).1 = demoTri := by
  obtain ⟨t, ht, y, hy, h, _⟩ := C42_small 1 (by norm_num) ⟨0, 0, 0⟩ [demoTri] (by simp) (by simp)
    (by intro y hy; rw [List.mem_singleton] at hy; subst hy; exact demoTri_proper)
    (by
      intro y hy q hq; rw [List.mem_singleton] at hy; subst hy
      obtain ⟨s, t, h1, h2, h3, rfl⟩ := hq
      simp only [InBox, triPoint, demoTri, Tri.make]
      refine ⟨⟨?_, ?_⟩, ⟨?_, ?_⟩, ?_, ?_⟩ <;> linarith)
    1000 demoTri ⟨2, 0, 3⟩
    (by
      intro y hy q hq; rw [List.mem_singleton] at hy; subst hy
      obtain ⟨s, t, h1, h2, h3, rfl⟩ := hq
      simp only [sqDist, triPoint, demoTri, Tri.make]
      nlinarith)
  rw [List.mem_singleton] at hy
  exact ⟨t, ht, by rw [h, hy]⟩

/-! ### C42 fails in general -/

/-- A large triangle ... -/
def bigTri : Tri := Tri.make ⟨19, 1, 1⟩ ⟨1, 19, 1⟩ ⟨1, 1, 19⟩

/-- ... and a small one. -/
def smallTri : Tri := Tri.make ⟨6, 6, 6⟩ ⟨5, 6, 6⟩ ⟨6, 5, 6⟩

theorem bigTri_proper : bigTri.Proper := by
  apply proper_make
  simp only [Vec3.cross, Vec3.sub, ne_eq, Vec3.mk.injEq]
  norm_num

theorem smallTri_proper : smallTri.Proper := by
  apply proper_make
  simp only [Vec3.cross, Vec3.sub, ne_eq, Vec3.mk.injEq]
  norm_num

/-- Sixty-one triangles in the cube `[0, 20]^3`. -/
def missMesh : List Tri := bigTri :: List.replicate 59 smallTri ++ [smallTri]

theorem triIndex_eq {pos : Vec3 ℝ} {half : ℝ} {p : Vec3 ℝ} {i : Fin 8} (h1 : i.val &&& 1 ≠ 0 ↔ pos.x + half ≤ p.x)
    (h2 : i.val &&& 2 ≠ 0 ↔ pos.y + half ≤ p.y) (h3 : i.val &&& 4 ≠ 0 ↔ pos.z + half ≤ p.z) : triIndex pos half p = i := by
  obtain ⟨b1, b2, b3⟩ := triIndex_bits pos half p
  have : ∀ a b : Fin 8, (a.val &&& 1 ≠ 0 ↔ b.val &&& 1 ≠ 0) → (a.val &&& 2 ≠ 0 ↔ b.val &&& 2 ≠ 0) →
      (a.val &&& 4 ≠ 0 ↔ b.val &&& 4 ≠ 0) → a = b := by decide
  exact this _ _ (b1.trans h1.symm) (b2.trans h2.symm) (b3.trans h3.symm)

/-- C42, refuted: in a tree built from 61 proper triangles inside the root box, the point `(7, 7, 7)` lies on a stored
triangle, but the reported distance is positive. -/
theorem C42_miss : ∃ t, TriTree.build 10 ⟨0, 0, 0⟩ missMesh = some t ∧
    (∀ x ∈ missMesh, x.Proper ∧ ∀ q, x.Corner q → InBox ⟨0, 0, 0⟩ 10 q) ∧
    (∃ x, t.Stored x ∧ x.Mem ⟨7, 7, 7⟩) ∧
    ∀ highest junk, 0 < highest → 0 < (t.nearTriangle highest junk ⟨7, 7, 7⟩).2.1 := by
  have hb := build_small 10 ⟨0, 0, 0⟩ (bigTri :: List.replicate 59 smallTri) (by simp)
  have hb2 := build_append 10 ⟨0, 0, 0⟩ _ hb [smallTri]
  refine ⟨_, hb2, ?_, ?_, ?_⟩
  · intro x hx
    simp only [missMesh, List.cons_append, List.mem_cons, List.mem_append, List.mem_replicate,
      List.not_mem_nil, or_false] at hx
    have : x = bigTri ∨ x = smallTri := by tauto
    rcases this with rfl | rfl
    · refine ⟨bigTri_proper, ?_⟩
      intro q hq
      rcases hq with rfl | rfl | rfl <;> simp only [InBox, bigTri, Tri.make] <;> norm_num
    · refine ⟨smallTri_proper, ?_⟩
      intro q hq
      rcases hq with rfl | rfl | rfl <;> simp only [InBox, smallTri, Tri.make] <;> norm_num
  · refine ⟨bigTri, ?_, ?_⟩
    · rw [List.foldl_cons, List.foldl_nil, ins_stored (by simp), stored_leaf]
      left; simp
    · refine ⟨1 / 3, 1 / 3, by norm_num, by norm_num, by norm_num, ?_⟩
      simp only [triPoint, bigTri, Tri.make, Vec3.mk.injEq]
      norm_num
  · intro highest junk hpos
    rw [List.foldl_cons, List.foldl_nil, TriTree.ins, if_neg (by simp)]
    unfold TriTree.nearTriangle
    dsimp only
    apply Real.sqrt_pos.mpr
    rw [near_inner]
    split_ifs
    · exact hpos
    have hidx : triIndex ⟨0, 0, 0⟩ 10 ⟨7, 7, 7⟩ = 0 := by
      apply triIndex_eq <;> norm_num
    rw [hidx]
    -- the first child stores only small triangles
    have hbig : ∀ i : Fin 8, triTarget ⟨0, 0, 0⟩ 10 bigTri i → i ≠ 0 := by
      intro i hi
      unfold triTarget at hi
      have e1 : triIndex ⟨0, 0, 0⟩ 10 bigTri.a = 1 := by
        apply triIndex_eq <;> simp only [bigTri, Tri.make] <;> norm_num
      have e2 : triIndex ⟨0, 0, 0⟩ 10 bigTri.b = 2 := by
        apply triIndex_eq <;> simp only [bigTri, Tri.make] <;> norm_num <;> decide
      have e3 : triIndex ⟨0, 0, 0⟩ 10 bigTri.c = 4 := by
        apply triIndex_eq <;> simp only [bigTri, Tri.make] <;> norm_num <;> decide
      rw [e1, e2, e3] at hi
      rintro rfl
      revert hi; decide
    have hst : ∀ x, (splitCh ⟨0, 0, 0⟩ 10 0 (bigTri :: List.replicate 59 smallTri) 0).Stored x → x = smallTri := by
      intro x hx
      rw [stored_splitCh] at hx
      rcases List.mem_cons.mp hx.1 with rfl | h
      · exact absurd rfl (hbig 0 hx.2)
      · exact (List.mem_replicate.mp h).2
    have hsm : triTarget ⟨0, 0, 0⟩ 10 smallTri 0 := by
      left; symm
      apply triIndex_eq <;> simp only [smallTri, Tri.make] <;> norm_num
    have hmem : smallTri ∈ (bigTri :: List.replicate 59 smallTri).filter (fun x => triTarget ⟨0, 0, 0⟩ 10 x 0) := by
      simp [hsm]
    have hbox : (splitCh ⟨0, 0, 0⟩ 10 0 (bigTri :: List.replicate 59 smallTri) 0).Boxed (triSubpos ⟨0, 0, 0⟩ 10 0) (10 / 2) 1 := by
      unfold splitCh
      rw [if_neg (List.ne_nil_of_mem hmem)]
      refine ⟨rfl, rfl, rfl, by omega, Or.inl ?_⟩
      exact (List.length_filter_le _ _).trans (by simp)
    have hin : (splitCh ⟨0, 0, 0⟩ 10 0 (bigTri :: List.replicate 59 smallTri) 0).StoredIn smallTri (triSubpos ⟨0, 0, 0⟩ 10 0) (10 / 2) := by
      unfold splitCh
      rw [if_neg (List.ne_nil_of_mem hmem)]
      exact ⟨0 + 1, _, by simp only [TriTree.leaves, List.mem_singleton], hmem⟩
    obtain ⟨K, hK, hmK, hd⟩ := C43_distance smallTri smallTri_proper ⟨7, 7, 7⟩
    have hd3 : (triDistance ⟨7, 7, 7⟩ smallTri).1 ≤ 3 := by
      rw [hd]
      refine (hmK ⟨6, 6, 6⟩ ⟨0, 0, by norm_num, by norm_num, by norm_num, by simp [triPoint, smallTri, Tri.make]⟩).trans ?_
      simp only [sqDist]; norm_num
    have hd0 : 0 < (triDistance ⟨7, 7, 7⟩ smallTri).1 := by
      rw [hd]
      obtain ⟨s, t, _, _, _, rfl⟩ := hK
      simp only [sqDist, triPoint, smallTri, Tri.make]
      nlinarith [sq_nonneg (7 - (6 + s * (5 - 6) + t * (6 - 6) : ℝ)), sq_nonneg (7 - (6 + s * (6 - 6) + t * (5 - 6) : ℝ))]
    -- state after the first child
    unfold nearCh
    generalize hs1 : (splitCh ⟨0, 0, 0⟩ 10 0 (bigTri :: List.replicate 59 smallTri) 0).near ⟨7, 7, 7⟩ ⟨highest, junk, 0⟩ = s1
    have hle : s1.bound ≤ 3 := by
      rw [← hs1]
      rcases near_complete hbox (by norm_num) ⟨7, 7, 7⟩ ⟨highest, junk, 0⟩ hin with h | h
      · refine h.le.trans ((distanceToNode_le (q := ⟨6, 6, 6⟩) ?_).trans ?_)
        · simp only [InBox, triSubpos]; norm_num
        · simp only [sqDist]; norm_num
      · rcases h with h | h
        · exact h.le.trans hd3
        · exact h.1.le.trans hd3
    have hgt : 0 < s1.bound := by
      rw [← hs1]
      rcases near_source ⟨7, 7, 7⟩ (splitCh ⟨0, 0, 0⟩ 10 0 (bigTri :: List.replicate 59 smallTri) 0) ⟨highest, junk, 0⟩ with h | ⟨x, hx, h⟩
      · rw [h]; exact hpos
      · rw [h, hst x hx]; exact hd0
    -- the other children are skipped
    have skip : ∀ i : Fin 8, i ≠ 0 → (splitCh ⟨0, 0, 0⟩ 10 0 (bigTri :: List.replicate 59 smallTri) i).near ⟨7, 7, 7⟩ s1 = s1 := by
      intro i hi
      unfold splitCh
      split_ifs
      · rfl
      · rw [TriTree.near, if_pos]
        refine lt_of_le_of_lt hle ?_
        obtain ⟨q, hq, he⟩ := distanceToNode_attained (pos := triSubpos ⟨0, 0, 0⟩ 10 i) (half := 10 / 2) (by norm_num) ⟨7, 7, 7⟩
        rw [he]
        have hbit : i.val &&& 1 ≠ 0 ∨ i.val &&& 2 ≠ 0 ∨ i.val &&& 4 ≠ 0 := by
          have : ∀ j : Fin 8, j ≠ 0 → j.val &&& 1 ≠ 0 ∨ j.val &&& 2 ≠ 0 ∨ j.val &&& 4 ≠ 0 := by decide
          exact this i hi
        simp only [InBox, triSubpos] at hq
        simp only [sqDist]
        rcases hbit with hb | hb | hb
        · have := hq.1.1; rw [if_pos hb] at this
          nlinarith [sq_nonneg (7 - q.y), sq_nonneg (7 - q.z)]
        · have := hq.2.1.1; rw [if_pos hb] at this
          nlinarith [sq_nonneg (7 - q.x), sq_nonneg (7 - q.z)]
        · have := hq.2.2.1; rw [if_pos hb] at this
          nlinarith [sq_nonneg (7 - q.y), sq_nonneg (7 - q.x)]
    have fold : ∀ l : List (Fin 8), l.foldl (fun s i => if i ≠ 0 then
        (splitCh ⟨0, 0, 0⟩ 10 0 (bigTri :: List.replicate 59 smallTri) i).near ⟨7, 7, 7⟩ s else s) s1 = s1 := by
      intro l
      induction l with
      | nil => rfl
      | cons i l ih =>
        rw [List.foldl_cons]
        by_cases hi : i = 0
        · rw [if_neg (by simpa using hi)]; exact ih
        · rw [if_pos hi, skip i hi]; exact ih
    rw [fold]
    exact hgt

end
end Isomesh
