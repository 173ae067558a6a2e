import Verif.Proofs.OctreeLeaves

/-! C21: the recursive octree traversal reaches every minimal edge once. -/

namespace Isomesh
open Spec

section
variable {N L : Type}

theorem EdgeEv.ext' {a b : EdgeEv L} (h1 : a.D = b.D) (h2 : a.p = b.p) (h3 : a.j = b.j) (h4 : a.q = b.q) : a = b := by
  cases a; cases b; simp_all

/-- First unit edge of an event, in doubled coordinates. -/
def EdgeEv.mid (e : EdgeEv L) : IVec3 :=
  ⟨2 * e.p.x + if e.D = .X then 1 else 0, 2 * e.p.y + if e.D = .Y then 1 else 0, 2 * e.p.z + if e.D = .Z then 1 else 0⟩

theorem mid_get (e : EdgeEv L) (a : Axis) : e.mid.get a = 2 * e.p.get a + if a = e.D then 1 else 0 := by
  cases a <;> simp only [EdgeEv.mid, IVec3.get, eq_comm]

theorem mid_pt (e : EdgeEv L) : EdgePt e.mid := by
  refine ⟨e.D, ?_, fun a ha => ?_⟩
  · rw [mid_get, if_pos rfl]; omega
  · rw [mid_get, if_neg ha]; omega

theorem mid_cov (e : EdgeEv L) : e.cov e.mid = true := by
  rw [EdgeEv.cov, decide_eq_true_eq, inF_iff]
  intro a
  have hpos := two_pow_pos' e.j
  rw [mid_get]
  unfold axIn edgeF
  by_cases ha : a = e.D
  · rw [if_pos (by simpa using ha), if_pos ha]; omega
  · rw [if_neg (by simpa using ha), if_neg ha]; omega

theorem edgeOff_self (D : Axis) (i : Fin 4) : (edgeOff D i).get D = 0 := by cases D <;> revert i <;> decide

theorem edgeOff_other {D a : Axis} (h : a ≠ D) (i : Fin 4) : (edgeOff D i).get a = 0 ∨ (edgeOff D i).get a = -1 := by
  cases D <;> cases a <;> first | exact absurd rfl h | (revert i; decide)

/-- The unit cells around a unit edge belong to the cubes around a segment that contains it. -/
theorem cell_in_corner {D : Axis} {p w : IVec3} {j : Nat} (hw : inF (edgeF D) p (2 ^ j) w) (hodd : w.get D % 2 = 1) (i : Fin 4)
    {u : IVec3} (hu : ∀ a, 2 * u.get a = w.get a + (if a = D then -1 else 2 * (edgeOff D i).get a)) :
    Cube.Has ⟨edgeCorner D p (2 ^ j) i, j⟩ u := by
  rw [cubeHas_iff]
  rw [inF_iff] at hw
  intro a
  have hpos := two_pow_pos' j
  have h1 := hw a
  have h2 := hu a
  simp only [edgeCorner_get, Cube.side]
  unfold axIn edgeF at h1
  by_cases ha : a = D
  · subst ha
    rw [if_pos (by simp)] at h1
    rw [if_pos rfl] at h2
    rw [edgeOff_self, mul_zero, add_zero]
    omega
  · rw [if_neg (by simpa using ha)] at h1
    rw [if_neg ha] at h2
    rcases edgeOff_other ha i with e | e <;> rw [e] at h2 ⊢ <;> omega

/-- The unit cells around a unit edge. -/
def cellAt (D : Axis) (w : IVec3) (i : Fin 4) : IVec3 :=
  let g : Axis → Int := fun a => if a = D then w.get a / 2 else w.get a / 2 + (edgeOff D i).get a
  ⟨g .X, g .Y, g .Z⟩

theorem cellAt_get {D : Axis} {w : IVec3} (h : w.get D % 2 = 1) (h' : ∀ a, a ≠ D → w.get a % 2 = 0) (i : Fin 4) (a : Axis) :
    2 * (cellAt D w i).get a = w.get a + (if a = D then -1 else 2 * (edgeOff D i).get a) := by
  have e : (cellAt D w i).get a = if a = D then w.get a / 2 else w.get a / 2 + (edgeOff D i).get a := by cases a <;> rfl
  rw [e]
  by_cases ha : a = D
  · rw [if_pos ha, if_pos ha]; subst ha; omega
  · have := h' a ha
    rw [if_neg ha, if_neg ha]; omega

theorem cov_axis {e : EdgeEv L} {w : IVec3} (hc : e.cov w = true) {D : Axis} (h : w.get D % 2 = 1)
    (h' : ∀ a, a ≠ D → w.get a % 2 = 0) : e.D = D := by
  rw [EdgeEv.cov, decide_eq_true_eq, inF_iff] at hc
  by_contra hne
  have := hc D
  unfold axIn edgeF at this
  rw [if_neg (by simpa using Ne.symm hne)] at this
  omega

/-- Two good events over the same unit edge are equal. -/
theorem good_unique {t : Oct N (Cube × L)} {c : Cube} (hp : Placed t c) {e e' : EdgeEv L} (h : e.Good t.leaves)
    (h' : e'.Good t.leaves) {w : IVec3} (hw : EdgePt w) (hc : e.cov w = true) (hc' : e'.cov w = true) : e = e' := by
  obtain ⟨D, h1, h2⟩ := hw
  have hD := cov_axis hc h1 h2
  have hD' := cov_axis hc' h1 h2
  obtain ⟨D0, p, j, q⟩ := e
  obtain ⟨D1, p', j', q'⟩ := e'
  simp only at hD hD'
  subst hD
  subst hD'
  rw [EdgeEv.cov, decide_eq_true_eq] at hc hc'
  have hq : q = q' := by
    funext i
    have a1 := cell_in_corner hc h1 i (cellAt_get h1 h2 i)
    have a2 := cell_in_corner hc' h1 i (cellAt_get h1 h2 i)
    exact leaf_unique hp _ (h.leaf i) _ (h'.leaf i) _ (cubeSub_has (h.contains i) a1) (cubeSub_has (h'.contains i) a2)
  subst hq
  obtain ⟨i0, e0⟩ := h.least
  obtain ⟨i1, e1⟩ := h'.least
  have c0 := h'.contains i0
  have c1 := h.contains i1
  simp only at e0 e1 c0 c1
  rw [e0, cubeSub_iff] at c0
  rw [e1, cubeSub_iff] at c1
  simp only [Cube.side] at c0 c1
  have hj : j = j' := by
    have a1 := c0 .X
    have a2 := c1 .X
    have b1 : (2 : Int) ^ j' ≤ 2 ^ j := by omega
    have b2 : (2 : Int) ^ j ≤ 2 ^ j' := by omega
    exact Nat.pow_right_injective (le_refl 2) (by
      have : ((2 ^ j : Nat) : Int) = ((2 ^ j' : Nat) : Int) := by push_cast; exact le_antisymm b2 b1
      exact_mod_cast this)
  subst hj
  have hpp : p = p' := by
    apply ivec_ext
    intro a
    have := c0 a
    simp only [edgeCorner_get] at this
    omega
  subst hpp
  rfl

/-- A minimal edge is not flat. -/
theorem good_not_flat {t : Oct N (Cube × L)} {c : Cube} (hp : Placed t c) {e : EdgeEv L} (h : e.Good t.leaves) :
    ¬ FlatAt t.leaves e.mid := by
  rintro ⟨a, ha, hf⟩
  have haD : a ≠ e.D := by
    rintro rfl
    rw [mid_get, if_pos rfl] at ha
    omega
  obtain ⟨i0, e0⟩ := h.least
  obtain ⟨D0, h1, h2⟩ := mid_pt e
  have hD0 : e.D = D0 := cov_axis (mid_cov e) h1 h2
  subst hD0
  -- the cell of the least leaf and its neighbour across `a`
  have hu := cellAt_get h1 h2 i0
  have hin := cell_in_corner (of_decide_eq_true (mid_cov e)) h1 i0 hu
  rw [← e0] at hin
  set u := cellAt e.D e.mid i0 with hud
  have hoff : ∀ b, b ≠ e.D → (edgeOff e.D i0).get b = 0 ∨ (edgeOff e.D i0).get b = -1 := fun b hb => edgeOff_other hb i0
  have hpos := two_pow_pos' e.j
  have ht : Touch u e.mid := by
    intro b
    have := hu b
    by_cases hb : b = e.D
    · rw [if_pos hb] at this; omega
    · rw [if_neg hb] at this
      rcases hoff b hb with e | e <;> rw [e] at this <;> omega
  have key : ∀ v : IVec3, (∀ b, b ≠ a → v.get b = u.get b) → v.get a + u.get a = e.mid.get a - 1 → ∀ l ∈ t.leaves, l.1.Has u → l.1.Has v → False := by
    intro v _ hv l hl hlu hlv
    have := leaf_unique hp l hl (e.q i0) (h.leaf i0) u hlu hin
    subst this
    rw [e0, cubeHas_iff] at hlv hlu
    have b1 := hlv a
    have b2 := hlu a
    have b3 := hu a
    rw [if_neg haD, mid_get, if_neg haD] at b3
    rw [mid_get, if_neg haD] at hv
    simp only [edgeCorner_get, Cube.side] at b1 b2
    rcases hoff a haD with e | e <;> rw [e] at b1 b2 b3 <;> omega
  have hua := hu a
  rw [if_neg haD] at hua
  rcases hoff a haD with ho | ho
  · -- the neighbour is below
    let v : IVec3 := ⟨u.x - if a = .X then 1 else 0, u.y - if a = .Y then 1 else 0, u.z - if a = .Z then 1 else 0⟩
    have hv : ∀ b, v.get b = u.get b - if b = a then 1 else 0 := by
      intro b; cases b <;> simp only [v, IVec3.get, eq_comm]
    have hnv : nextCell a v = u := by
      apply ivec_ext
      intro b
      rw [nextCell_get, hv]
      ring
    rw [ho] at hua
    have htv : Touch v e.mid := by
      intro b
      rw [hv]
      by_cases hb : b = a
      · subst hb; rw [if_pos rfl]; omega
      · rw [if_neg hb]
        have := ht b
        omega
    obtain ⟨l, hl, l1, l2⟩ := hf v htv (hnv ▸ ht)
    rw [hnv] at l2
    refine key v (fun b hb => by rw [hv, if_neg hb]; omega) ?_ l hl l2 l1
    rw [hv, if_pos rfl]; omega
  · rw [ho] at hua
    have htv : Touch (nextCell a u) e.mid := by
      intro b
      rw [nextCell_get]
      by_cases hb : b = a
      · subst hb; rw [if_pos rfl]; omega
      · rw [if_neg hb]
        have := ht b
        omega
    obtain ⟨l, hl, l1, l2⟩ := hf u ht htv
    refine key _ (fun b hb => by rw [nextCell_get, if_neg hb]; omega) ?_ l hl l1 l2
    rw [nextCell_get, if_pos rfl]; omega

/-- A minimal edge is inside the root cube. -/
theorem good_inside {t : Oct N (Cube × L)} {c : Cube} (hp : Placed t c) {e : EdgeEv L} (h : e.Good t.leaves) :
    inF cellF c.lo c.side e.mid := by
  rw [inF_iff]
  intro a
  unfold axIn cellF
  rw [if_pos rfl, mid_get]
  have hpos := two_pow_pos' e.j
  have key : ∀ i, c.lo.get a ≤ e.p.get a + 2 ^ e.j * (edgeOff e.D i).get a ∧
      e.p.get a + 2 ^ e.j * (edgeOff e.D i).get a + 2 ^ e.j ≤ c.lo.get a + c.side := by
    intro i
    have := cubeSub_iff.1 (cubeSub_trans (h.contains i) (leaf_sub hp _ (h.leaf i))) a
    simpa only [edgeCorner_get, Cube.side] using this
  have k0 := key 0
  have k2 := key 2
  have e2 : (edgeOff e.D 2).get a = 0 := by
    generalize e.D = D; cases D <;> cases a <;> rfl
  rw [e2, mul_zero, add_zero] at k2
  by_cases ha : a = e.D
  · rw [if_pos ha]; omega
  · rw [if_neg ha]
    have e1 : (edgeOff e.D 0).get a = -1 := by
      generalize e.D = D at ha; cases D <;> cases a <;> first | exact absurd rfl ha | rfl
    rw [e1] at k0
    omega

theorem count_one_nodup {α κ : Type} (key : α → κ) (P : α → α → Bool)
    (hkey : ∀ a b, key a = key b → P a b = true) (l : List α) (h : ∀ a ∈ l, l.countP (P a) ≤ 1) :
    (l.map key).Nodup := by
  induction l with
  | nil => simp
  | cons a l ih =>
    rw [List.map_cons, List.nodup_cons]
    constructor
    · intro hm
      obtain ⟨b, hb, hab⟩ := List.mem_map.1 hm
      have := h a List.mem_cons_self
      rw [List.countP_cons, if_pos (hkey a a rfl)] at this
      have h0 : 0 < l.countP (P a) := List.countP_pos_iff.2 ⟨b, hb, hkey a b hab.symm⟩
      omega
    · refine ih fun b hb => ?_
      have := h b (List.mem_cons_of_mem _ hb)
      rw [List.countP_cons] at this
      omega

/-- The traversal of a placed tree: events, all minimal edges, each once; and every interior unit edge is covered by one
event or flat. -/
theorem cell_events {T : Trav} (hT : TravOK T) {t : Oct N (Cube × L)} {c : Cube} (hp : Placed t c) :
    ∃ A : List (EdgeEv L), T.cellProc t = A.map (EdgeEv.call N) ∧ (∀ e, e ∈ A ↔ e.Good t.leaves) ∧
      (A.map fun e => (e.D, e.p, e.j)).Nodup ∧
      ∀ w, EdgePt w → (¬ inF cellF c.lo c.side w → A.countP (EdgeEv.cov w) = 0) ∧
        (inF cellF c.lo c.side w → A.countP (EdgeEv.cov w) = 1 ∨ (A.countP (EdgeEv.cov w) = 0 ∧ FlatAt t.leaves w)) := by
  obtain ⟨A, hA, hg, hc⟩ := cell_trace hT t c hp (fun l hl => hl)
  refine ⟨A, hA.symm, fun e => ⟨hg e, fun he => ?_⟩, ?_, hc⟩
  · rcases (hc e.mid (mid_pt e)).2 (good_inside hp he) with h1 | ⟨-, hfl⟩
    · obtain ⟨e', he', hcov⟩ := List.countP_pos_iff.1 (by omega : 0 < A.countP (EdgeEv.cov e.mid))
      have := good_unique hp he (hg e' he') (mid_pt e) (mid_cov e) hcov
      rwa [this]
    · exact absurd hfl (good_not_flat hp he)
  · have : ∀ e ∈ A, A.countP (EdgeEv.cov e.mid) ≤ 1 := by
      intro e he
      rcases (hc e.mid (mid_pt e)).2 (good_inside hp (hg e he)) with h1 | ⟨h0, -⟩ <;> omega
    refine count_one_nodup _ (fun a b => b.cov a.mid) ?_ A this
    intro a b h
    simp only [Prod.mk.injEq] at h
    have hm : a.mid = b.mid := by simp only [EdgeEv.mid, h.1, h.2.1]
    rw [hm]
    exact mid_cov b

/-- C21 for a traversal with the given tables. -/
theorem minimal_edges {T : Trav} (hT : TravOK T) (t : Oct N L) (c : Cube) (h : t.height ≤ c.k) :
    ∃ visits : List (Axis × IVec3 × Nat × (Fin 4 → Cube × L)),
      T.cellProc t = visits.map (fun v => (v.1, fun i => Oct.leaf (v.2.2.2 i).2)) ∧
      (visits.map fun v => (v.1, v.2.1, v.2.2.1)).Nodup ∧
      ∀ D p j q, (D, p, j, q) ∈ visits ↔ MinimalEdge t c D p j q := by
  obtain ⟨A, h1, h2, h3, -⟩ := cell_events hT (placed_locate t c h)
  refine ⟨A.map fun e => (e.D, e.p, e.j, e.q), ?_, ?_, ?_⟩
  · conv_lhs => rw [← locate_map t c]
    rw [cellProc_map, h1, List.map_map, List.map_map]
    rfl
  · rw [List.map_map]
    exact h3
  · intro D p j q
    have : (D, p, j, q) ∈ A.map (fun e => (e.D, e.p, e.j, e.q)) ↔ (⟨D, p, j, q⟩ : EdgeEv L) ∈ A := by
      rw [List.mem_map]
      constructor
      · rintro ⟨⟨D', p', j', q'⟩, he, h⟩
        simp only [Prod.mk.injEq] at h
        obtain ⟨rfl, rfl, rfl, rfl⟩ := h
        exact he
      · intro h; exact ⟨_, h, rfl⟩
    rw [this, h2]
    exact ⟨fun h => ⟨h.leaf, h.contains, h.least⟩, fun h => ⟨h.leaf, h.contains, h.least⟩⟩

/-- C21.  For every octree and every cube large enough for it, the traversal of `DC_Octree::contour` calls the leaf-level
edge routine exactly once for each minimal edge inside the cube, with the leaves around it in order, and for nothing
else. -/
theorem C21_dc_minimal_edges (t : Oct N L) (c : Cube) (h : t.height ≤ c.k) :
    ∃ visits : List (Axis × IVec3 × Nat × (Fin 4 → Cube × L)),
      dcTrav.cellProc t = visits.map (fun v => (v.1, fun i => Oct.leaf (v.2.2.2 i).2)) ∧
      (visits.map fun v => (v.1, v.2.1, v.2.2.1)).Nodup ∧
      ∀ D p j q, (D, p, j, q) ∈ visits ↔ MinimalEdge t c D p j q :=
  minimal_edges dcTravOK t c h

/-- C21 for the traversal of `MDC_Octree::contour`. -/
theorem C21_mdc_minimal_edges (t : Oct N L) (c : Cube) (h : t.height ≤ c.k) :
    ∃ visits : List (Axis × IVec3 × Nat × (Fin 4 → Cube × L)),
      mdcTrav.cellProc t = visits.map (fun v => (v.1, fun i => Oct.leaf (v.2.2.2 i).2)) ∧
      (visits.map fun v => (v.1, v.2.1, v.2.2.1)).Nodup ∧
      ∀ D p j q, (D, p, j, q) ∈ visits ↔ MinimalEdge t c D p j q :=
  minimal_edges mdcTravOK t c h

/-- C21.  The leaves tile the cube: every unit cell belongs to exactly one leaf (so `q` above is determined by the
segment). -/
theorem C21_leaves_tile (t : Oct N L) (c : Cube) (h : t.height ≤ c.k) (u : IVec3) (hu : c.Has u) :
    ∃ l ∈ (locate t c).leaves, l.1.Has u ∧ ∀ l' ∈ (locate t c).leaves, l'.1.Has u → l' = l := by
  have hp := placed_locate t c h
  obtain ⟨l, hl, hlu⟩ := leaf_exists hp u hu
  exact ⟨l, hl, hlu, fun l' hl' hu' => leaf_unique hp l' hl' l hl u hu' hlu⟩

/-- An octree whose first octant is refined once more. -/
def demoOct : Oct Unit Nat :=
  .inner () fun i => if i = 0 then .inner () fun j => .leaf (10 + j) else .leaf i

/-- In the cube of side 4 it has a minimal edge between one small and three large leaves. -/
theorem demo_minimal : MinimalEdge demoOct ⟨⟨0, 0, 0⟩, 2⟩ .X ⟨0, 2, 2⟩ 0
    ![(⟨⟨0, 1, 1⟩, 0⟩, 15), (⟨⟨0, 2, 0⟩, 1⟩, 4), (⟨⟨0, 2, 2⟩, 1⟩, 5), (⟨⟨0, 0, 2⟩, 1⟩, 1)] where
  leaf := by decide
  contains := by unfold Cube.Sub; decide
  least := ⟨0, by decide⟩

example : demoOct.height ≤ (⟨⟨0, 0, 0⟩, 2⟩ : Cube).k := by decide

end
end Isomesh
