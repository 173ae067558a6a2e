import Verif.Proofs.TriDistance
import Verif.Proofs.TriInsert

/-! Search of the nearest triangle. -/

namespace Isomesh

noncomputable section
open scoped Classical

theorem clampDist_le {lo hi p y : ℝ} (h1 : lo ≤ y) (h2 : y ≤ hi) : (min (max lo p) hi - p) ^ 2 ≤ (p - y) ^ 2 := by
  rcases le_total lo p with h | h
  · rw [max_eq_right h]
    rcases le_total p hi with h' | h'
    · rw [min_eq_left h', sub_self]; nlinarith [sq_nonneg (p - y)]
    · rw [min_eq_right h']; nlinarith
  · rw [max_eq_left h, min_eq_left (h1.trans h2)]; nlinarith

theorem triClamp_mem {lo hi p : ℝ} (h : lo ≤ hi) : lo ≤ min (max lo p) hi ∧ min (max lo p) hi ≤ hi :=
  ⟨le_min (le_max_left _ _) h, min_le_right _ _⟩

/-- `distanceToNode` is at most the squared distance to any point of the box. -/
theorem distanceToNode_le {pos : Vec3 ℝ} {half : ℝ} {p q : Vec3 ℝ} (h : InBox pos half q) : distanceToNode pos half p ≤ sqDist p q := by
  unfold distanceToNode glmClamp
  rw [distance2_eq]
  unfold sqDist
  have hx := clampDist_le (p := p.x) h.1.1 h.1.2
  have hy := clampDist_le (p := p.y) h.2.1.1 h.2.1.2
  have hz := clampDist_le (p := p.z) h.2.2.1 h.2.2.2
  dsimp only
  nlinarith

/-- and is the squared distance to some point of the box. -/
theorem distanceToNode_attained {pos : Vec3 ℝ} {half : ℝ} (hh : 0 ≤ half) (p : Vec3 ℝ) :
    ∃ q, InBox pos half q ∧ distanceToNode pos half p = sqDist p q := by
  refine ⟨⟨_, _, _⟩, ?_, by unfold distanceToNode; rw [distance2_eq]⟩
  unfold InBox glmClamp
  exact ⟨triClamp_mem (by linarith), triClamp_mem (by linarith), triClamp_mem (by linarith)⟩

theorem inBox_of_sub {pos : Vec3 ℝ} {half : ℝ} (hh : 0 ≤ half) {i : Fin 8} {q : Vec3 ℝ} (h : InBox (triSubpos pos half i) (half / 2) q) :
    InBox pos half q := by
  unfold InBox triSubpos at *
  dsimp only at h
  obtain ⟨⟨x1, x2⟩, ⟨y1, y2⟩, z1, z2⟩ := h
  refine ⟨?_, ?_, ?_⟩
  · split_ifs at x1 x2 <;> constructor <;> linarith
  · split_ifs at y1 y2 <;> constructor <;> linarith
  · split_ifs at z1 z2 <;> constructor <;> linarith

theorem distanceToNode_sub {pos : Vec3 ℝ} {half : ℝ} (hh : 0 ≤ half) (i : Fin 8) (p : Vec3 ℝ) :
    distanceToNode pos half p ≤ distanceToNode (triSubpos pos half i) (half / 2) p := by
  obtain ⟨q, h1, h2⟩ := distanceToNode_attained (pos := triSubpos pos half i) (half := half / 2) (by linarith) p
  rw [h2]
  exact distanceToNode_le (inBox_of_sub hh h1)

/-- Boxes of leaves are inside the box of the root. -/
theorem leaf_box {t : TriTree} {pos : Vec3 ℝ} {half : ℝ} {level : Nat} (h : t.Boxed pos half level) (hh : 0 ≤ half)
    {pos' : Vec3 ℝ} {half' : ℝ} {lv : Nat} {tris : List Tri} (hl : (pos', half', lv, tris) ∈ t.leaves) (p : Vec3 ℝ) :
    distanceToNode pos half p ≤ distanceToNode pos' half' p := by
  induction t generalizing pos half level with
  | null => simp [TriTree.leaves] at hl
  | leaf q hf l ts =>
    obtain ⟨rfl, rfl, rfl, _, _⟩ := h
    simp only [TriTree.leaves, List.mem_singleton, Prod.mk.injEq] at hl
    rw [hl.1, hl.2.1]
  | inner q hf l ch ih =>
    obtain ⟨rfl, rfl, rfl, _, h5⟩ := h
    simp only [TriTree.leaves, List.mem_flatMap] at hl
    obtain ⟨i, _, hl⟩ := hl
    exact (distanceToNode_sub hh i p).trans (ih i (h5 i) (by linarith) hl)

/-! ### The search state -/

/-- `s'` is at least as good as the distance `d` with sign `sg`. -/
def NearState.Good (s : NearState) (d : ℝ) (sg : Int) : Prop := s.bound < d ∨ (s.bound = d ∧ (sg > 0 → s.sign > 0))

theorem good_refl (s : NearState) : s.Good s.bound s.sign := Or.inr ⟨rfl, id⟩

theorem good_trans {s s' : NearState} {d : ℝ} {sg : Int} (h : s'.Good s.bound s.sign) (h' : s.Good d sg) : s'.Good d sg := by
  rcases h with h | ⟨h, k⟩
  · rcases h' with h' | ⟨h', _⟩
    · exact Or.inl (h.trans h')
    · exact Or.inl (h'  ▸ h)
  · rcases h' with h' | ⟨h', k'⟩
    · exact Or.inl (h ▸ h')
    · exact Or.inr ⟨h.trans h', fun g => k (k' g)⟩

theorem nearStep_good (p : Vec3 ℝ) (s : NearState) (x : Tri) :
    (nearStep p s x).Good s.bound s.sign ∧ (nearStep p s x).Good (triDistance p x).1 (triDistance p x).2 := by
  unfold nearStep
  dsimp only
  split_ifs with c
  · refine ⟨?_, Or.inr ⟨rfl, id⟩⟩
    rcases c with c | ⟨c, c2⟩
    · exact Or.inl c
    · exact Or.inr ⟨c, fun _ => c2⟩
  · refine ⟨good_refl s, ?_⟩
    push Not at c
    rcases c.1.lt_or_eq with h | h
    · exact Or.inl h
    · refine Or.inr ⟨h, fun g => absurd g (not_lt.mpr (c.2 h.symm))⟩

theorem nearFold_good (p : Vec3 ℝ) (l : List Tri) (s : NearState) :
    (l.foldl (nearStep p) s).Good s.bound s.sign ∧
    ∀ x ∈ l, (l.foldl (nearStep p) s).Good (triDistance p x).1 (triDistance p x).2 := by
  induction l generalizing s with
  | nil => exact ⟨good_refl s, by simp⟩
  | cons y l ih =>
    obtain ⟨h1, h2⟩ := nearStep_good p s y
    obtain ⟨h3, h4⟩ := ih (nearStep p s y)
    rw [List.foldl_cons]
    refine ⟨good_trans h3 h1, ?_⟩
    intro x hx
    rcases List.mem_cons.mp hx with rfl | hx
    · exact good_trans h3 h2
    · exact h4 x hx

theorem nearFold_source (p : Vec3 ℝ) (l : List Tri) (s : NearState) :
    l.foldl (nearStep p) s = s ∨ ∃ x ∈ l, l.foldl (nearStep p) s = ⟨(triDistance p x).1, x, (triDistance p x).2⟩ := by
  induction l generalizing s with
  | nil => exact Or.inl rfl
  | cons y l ih =>
    rw [List.foldl_cons]
    rcases ih (nearStep p s y) with h | ⟨x, hx, h⟩
    · rw [h]
      unfold nearStep
      dsimp only
      split_ifs
      · exact Or.inr ⟨y, by simp, rfl⟩
      · exact Or.inl rfl
    · exact Or.inr ⟨x, by simp [hx], h⟩

/-- Search through the children, own octant first. -/
def nearCh (p : Vec3 ℝ) (ch : Fin 8 → TriTree) (idx : Fin 8) (s : NearState) : NearState :=
  (List.finRange 8).foldl (fun s i => if i ≠ idx then (ch i).near p s else s) ((ch idx).near p s)

theorem near_inner {p pos : Vec3 ℝ} {half : ℝ} {level : Nat} {ch : Fin 8 → TriTree} {s : NearState} :
    (TriTree.inner pos half level ch).near p s = if distanceToNode pos half p > s.bound then s else nearCh p ch (triIndex pos half p) s := by
  rw [TriTree.near]; rfl

theorem near_source (p : Vec3 ℝ) (t : TriTree) (s : NearState) :
    t.near p s = s ∨ ∃ x, t.Stored x ∧ t.near p s = ⟨(triDistance p x).1, x, (triDistance p x).2⟩ := by
  induction t generalizing s with
  | null => exact Or.inl rfl
  | leaf q hf lv tris =>
    rw [TriTree.near]
    split_ifs
    · exact Or.inl rfl
    · rcases nearFold_source p tris s with h | ⟨x, hx, h⟩
      · exact Or.inl h
      · exact Or.inr ⟨x, stored_leaf.mpr hx, h⟩
  | inner q hf lv ch ih =>
    rw [near_inner]
    split_ifs
    · exact Or.inl rfl
    · simp only [stored_inner]
      unfold nearCh
      have base : ∀ i s0, (s0 = s ∨ ∃ x, (∃ i, (ch i).Stored x) ∧ s0 = ⟨(triDistance p x).1, x, (triDistance p x).2⟩) →
          ((ch i).near p s0 = s ∨ ∃ x, (∃ i, (ch i).Stored x) ∧ (ch i).near p s0 = ⟨(triDistance p x).1, x, (triDistance p x).2⟩) := by
        intro i s0 h
        rcases ih i s0 with h' | ⟨x, hx, h'⟩
        · rw [h']; exact h
        · exact Or.inr ⟨x, ⟨i, hx⟩, h'⟩
      have fold : ∀ (l : List (Fin 8)) s0, (s0 = s ∨ ∃ x, (∃ i, (ch i).Stored x) ∧ s0 = ⟨(triDistance p x).1, x, (triDistance p x).2⟩) →
          (l.foldl (fun s i => if i ≠ triIndex q hf p then (ch i).near p s else s) s0 = s ∨ ∃ x, (∃ i, (ch i).Stored x) ∧
            l.foldl (fun s i => if i ≠ triIndex q hf p then (ch i).near p s else s) s0 = ⟨(triDistance p x).1, x, (triDistance p x).2⟩) := by
        intro l
        induction l with
        | nil => intro s0 h; exact h
        | cons i l ihl =>
          intro s0 h
          rw [List.foldl_cons]
          apply ihl
          split_ifs
          · exact base i s0 h
          · exact h
      exact fold _ _ (base _ _ (Or.inl rfl))

theorem near_good (p : Vec3 ℝ) (t : TriTree) (s : NearState) : (t.near p s).Good s.bound s.sign := by
  induction t generalizing s with
  | null => exact good_refl s
  | leaf q hf lv tris =>
    rw [TriTree.near]
    split_ifs
    · exact good_refl s
    · exact (nearFold_good p tris s).1
  | inner q hf lv ch ih =>
    rw [near_inner]
    split_ifs
    · exact good_refl s
    · unfold nearCh
      have fold : ∀ (l : List (Fin 8)) s0,
          (l.foldl (fun s i => if i ≠ triIndex q hf p then (ch i).near p s else s) s0).Good s0.bound s0.sign := by
        intro l
        induction l with
        | nil => intro s0; exact good_refl s0
        | cons i l ihl =>
          intro s0
          rw [List.foldl_cons]
          refine good_trans (ihl _) ?_
          split_ifs
          · exact ih i s0
          · exact good_refl s0
      exact good_trans (fold _ _) (ih _ _)

/-- Every stored triangle is taken into account unless the box of its leaf is farther than the result. -/
theorem near_complete {t : TriTree} {pos : Vec3 ℝ} {half : ℝ} {level : Nat} (hb : t.Boxed pos half level) (hh : 0 ≤ half)
    (p : Vec3 ℝ) (s : NearState) {x : Tri} {pos' : Vec3 ℝ} {half' : ℝ} (hx : t.StoredIn x pos' half') :
    (t.near p s).bound < distanceToNode pos' half' p ∨ (t.near p s).Good (triDistance p x).1 (triDistance p x).2 := by
  induction t generalizing pos half level s with
  | null => obtain ⟨_, _, h, _⟩ := hx; simp [TriTree.leaves] at h
  | leaf q hf lv tris =>
    obtain ⟨lv', ts, hm, hx⟩ := hx
    simp only [TriTree.leaves, List.mem_singleton, Prod.mk.injEq] at hm
    obtain ⟨rfl, rfl, rfl, rfl⟩ := hm
    rw [TriTree.near]
    split_ifs with c
    · exact Or.inl c
    · exact Or.inr ((nearFold_good p ts s).2 x hx)
  | inner q hf lv ch ih =>
    have hb' := hb
    obtain ⟨rfl, rfl, rfl, _, h5⟩ := hb
    have hd : distanceToNode q hf p ≤ distanceToNode pos' half' p := by
      obtain ⟨lv', ts, hm, _⟩ := hx
      exact leaf_box hb' hh hm p
    rw [near_inner]
    split_ifs with c
    · exact Or.inl (lt_of_lt_of_le c hd)
    · rw [storedIn_inner] at hx
      obtain ⟨i, hi⟩ := hx
      unfold nearCh
      have mono : ∀ (l : List (Fin 8)) s0,
          (l.foldl (fun s i => if i ≠ triIndex q hf p then (ch i).near p s else s) s0).Good s0.bound s0.sign := by
        intro l
        induction l with
        | nil => intro s0; exact good_refl s0
        | cons i l ihl =>
          intro s0
          rw [List.foldl_cons]
          refine good_trans (ihl _) ?_
          split_ifs
          · exact near_good p (ch i) s0
          · exact good_refl s0
      have keep : ∀ s1 s2 : NearState, s2.Good s1.bound s1.sign →
          (s1.bound < distanceToNode pos' half' p ∨ s1.Good (triDistance p x).1 (triDistance p x).2) →
          (s2.bound < distanceToNode pos' half' p ∨ s2.Good (triDistance p x).1 (triDistance p x).2) := by
        intro s1 s2 g h
        rcases h with h | h
        · left
          rcases g with g | ⟨g, _⟩
          · exact g.trans h
          · rw [g]; exact h
        · exact Or.inr (good_trans g h)
      by_cases hidx : i = triIndex q hf p
      · apply keep _ _ (mono _ _)
        rw [← hidx]
        exact ih i (h5 i) (by linarith) _ hi
      · obtain ⟨l1, l2, hl⟩ := List.append_of_mem (List.mem_finRange i)
        rw [hl, List.foldl_append, List.foldl_cons, if_pos hidx]
        apply keep _ _ (mono _ _)
        exact ih i (h5 i) (by linarith) _ hi

end
end Isomesh
