import Verif.Proofs.FillCalls
import Verif.Props.Filled
import Verif.Proofs.MarchingCubes2

/-! C86: `fill` with user code that need not be a function. -/

set_option linter.unusedSectionVars false

namespace Isomesh
open Spec

variable {K : Type} [Add K] [Sub K] [Mul K] [Div K] [Zero K] [IntCast K] [LE K] [LT K] [DecidableLE K] [DecidableLT K]

theorem sample_fold (g : Grid K) (u : UserCode K) {l : List IVec3} (hl : l.Nodup) (vs : List K) (ms : List Material) (h : List (Call K)) :
    ∃ (val : IVec3 → K) (mt : IVec3 → Material), ∀ a : Answers K, a.value = val → a.material = mt →
      l.foldl (fun t p => sampleStep g u p t) (vs, ms, h) =
        (vs ++ l.map a.value, ms ++ l.map (pointMaterial a), h ++ l.flatMap (pointCalls a g.spos)) ∧
      Conversation u h (l.flatMap (pointCalls a g.spos)) := by
  induction l generalizing vs ms h with
  | nil =>
    refine ⟨fun _ => 0, fun _ => .Empty, fun a _ _ => ?_⟩
    simp [conversation_nil]
  | cons p l ih =>
    rw [List.nodup_cons] at hl
    obtain ⟨v, hv⟩ : ∃ v, v = u.value h (g.spos p) := ⟨_, rfl⟩
    obtain ⟨m, hm⟩ : ∃ m, m = u.material (h ++ [.value (g.spos p) v]) (g.spos p) v := ⟨_, rfl⟩
    have hstep : sampleStep g u p (vs, ms, h) = (vs ++ [v], ms ++ [if v > 0 then .Empty else m],
        h ++ (.value (g.spos p) v :: if v > 0 then [] else [.material (g.spos p) v m])) := by
      unfold sampleStep
      dsimp only
      rw [← hv, ← hm]
      by_cases hp : v > 0 <;> simp [hp]
    obtain ⟨val, mt, H⟩ := ih hl.2 (vs ++ [v]) (ms ++ [if v > 0 then .Empty else m])
      (h ++ (.value (g.spos p) v :: if v > 0 then [] else [.material (g.spos p) v m]))
    refine ⟨Function.update val p v, Function.update mt p m, fun a ha hb => ?_⟩
    obtain ⟨H1, H2⟩ := H ⟨val, mt, a.zero, a.grad⟩ rfl rfl
    have e1 : a.value p = v := by rw [ha, Function.update_self]
    have e2 : a.material p = m := by rw [hb, Function.update_self]
    have hq : ∀ q ∈ l, a.value q = val q ∧ a.material q = mt q := by
      intro q hq
      have hne : q ≠ p := fun h => hl.1 (h ▸ hq)
      rw [ha, hb, Function.update_of_ne hne, Function.update_of_ne hne]
      exact ⟨rfl, rfl⟩
    have m1 : l.map a.value = l.map val := List.map_congr_left fun q h => (hq q h).1
    have m2 : l.map (pointMaterial a) = l.map (pointMaterial ⟨val, mt, a.zero, a.grad⟩) :=
      List.map_congr_left fun q h => by unfold pointMaterial; rw [(hq q h).1, (hq q h).2]
    have m3 : l.flatMap (pointCalls a g.spos) = l.flatMap (pointCalls ⟨val, mt, a.zero, a.grad⟩ g.spos) :=
      flatMap_agree fun q h => by unfold pointCalls; rw [(hq q h).1, (hq q h).2]
    have m4 : pointCalls a g.spos p = .value (g.spos p) v :: if v > 0 then [] else [.material (g.spos p) v m] := by
      unfold pointCalls; rw [e1, e2]
    rw [List.foldl_cons, hstep, H1, List.map_cons, List.map_cons, List.flatMap_cons, m1, m2, m3, m4]
    refine ⟨?_, ?_⟩
    · simp [e1, e2, pointMaterial]
    · rw [conversation_append]
      refine ⟨?_, H2⟩
      rw [conversation_cons]
      refine ⟨hv, ?_⟩
      by_cases hp : v > 0
      · simp [hp, conversation_nil]
      · simp only [hp, if_false]
        rw [conversation_cons]
        exact ⟨hm, conversation_nil _ _⟩

theorem edge_fold (g : Grid K) (u : UserCode K) (val : IVec3 → K) (mt : IVec3 → Material) (D : Axis) {l : List IVec3} (hl : l.Nodup)
    (es : List (GridEdge K)) (h : List (Call K)) :
    ∃ (zr : IVec3 → K) (gr : IVec3 → Vec3 K), ∀ a : Answers K, a.value = val → pointMaterial a = mt → a.zero D = zr → a.grad D = gr →
      l.foldl (fun t p => edgeStep g u val mt D p t) (es, h) =
        (es ++ l.flatMap (fun p => if AnswersCross a D p then [answerRecord a g.gpos g.step D p] else []),
          h ++ l.flatMap (edgeCalls a g.gpos g.step D)) ∧
      Conversation u h (l.flatMap (edgeCalls a g.gpos g.step D)) := by
  induction l generalizing es h with
  | nil =>
    refine ⟨fun _ => 0, fun _ => ⟨0, 0, 0⟩, fun a _ _ _ _ => ?_⟩
    simp [conversation_nil]
  | cons p l ih =>
    rw [List.nodup_cons] at hl
    by_cases hc : ¬ (val p ≤ 0 ↔ val (edgeEnd D p) ≤ 0)
    · obtain ⟨c, ec⟩ : ∃ c, c = u.find h D (g.gpos p) ((g.gpos p).get D + g.step) (val p) (val (edgeEnd D p)) := ⟨_, rfl⟩
      obtain ⟨d, ed⟩ : ∃ d, d = u.grad (h ++ [.find D (g.gpos p) ((g.gpos p).get D + g.step) (val p) (val (edgeEnd D p)) c])
        ((g.gpos p).set D c) := ⟨_, rfl⟩
      obtain ⟨r, er⟩ : ∃ r : GridEdge K, r = ⟨p, d, (c - (g.gpos p).get D) / g.step, D, decide (val p ≤ 0),
        if val p ≤ 0 then mt p else mt (edgeEnd D p)⟩ := ⟨_, rfl⟩
      have hstep : edgeStep g u val mt D p (es, h) = (es ++ [r],
          h ++ [.find D (g.gpos p) ((g.gpos p).get D + g.step) (val p) (val (edgeEnd D p)) c, .grad ((g.gpos p).set D c) d]) := by
        unfold edgeStep
        rw [if_pos hc]
        dsimp only
        rw [← ec, ← ed, ← er]
        simp
      obtain ⟨zr, gr, H⟩ := ih hl.2 (es ++ [r])
        (h ++ [.find D (g.gpos p) ((g.gpos p).get D + g.step) (val p) (val (edgeEnd D p)) c, .grad ((g.gpos p).set D c) d])
      refine ⟨Function.update zr p c, Function.update gr p d, fun a ha hb hz hd => ?_⟩
      obtain ⟨H1, H2⟩ := H ⟨a.value, a.material, fun _ => zr, fun _ => gr⟩ ha (by rw [← hb]; rfl) rfl rfl
      have e1 : a.zero D p = c := by rw [hz, Function.update_self]
      have e2 : a.grad D p = d := by rw [hd, Function.update_self]
      have hq : ∀ q ∈ l, a.zero D q = zr q ∧ a.grad D q = gr q := by
        intro q hq
        have hne : q ≠ p := fun h => hl.1 (h ▸ hq)
        rw [hz, hd, Function.update_of_ne hne, Function.update_of_ne hne]
        exact ⟨rfl, rfl⟩
      have hac : AnswersCross a D p := by unfold AnswersCross; rw [ha]; exact hc
      have m1 : l.flatMap (fun p => if AnswersCross a D p then [answerRecord a g.gpos g.step D p] else []) =
          l.flatMap (fun p => if AnswersCross ⟨a.value, a.material, fun _ => zr, fun _ => gr⟩ D p then
            [answerRecord ⟨a.value, a.material, fun _ => zr, fun _ => gr⟩ g.gpos g.step D p] else []) :=
        flatMap_agree fun q h => by
          unfold AnswersCross answerRecord
          rw [(hq q h).1, (hq q h).2]; rfl
      have m2 : l.flatMap (edgeCalls a g.gpos g.step D) =
          l.flatMap (edgeCalls ⟨a.value, a.material, fun _ => zr, fun _ => gr⟩ g.gpos g.step D) :=
        flatMap_agree fun q h => by
          unfold edgeCalls AnswersCross
          rw [(hq q h).1, (hq q h).2]
      have m3 : edgeCalls a g.gpos g.step D p =
          [.find D (g.gpos p) ((g.gpos p).get D + g.step) (val p) (val (edgeEnd D p)) c, .grad ((g.gpos p).set D c) d] := by
        unfold edgeCalls
        rw [if_pos hac, ha, e1, e2]
      have m4 : answerRecord a g.gpos g.step D p = r := by
        unfold answerRecord
        rw [er, ha, hb, e1, e2]
      rw [List.foldl_cons, hstep, H1, List.flatMap_cons, List.flatMap_cons, m1, m2, m3, if_pos hac, m4]
      refine ⟨by simp, ?_⟩
      rw [conversation_append]
      refine ⟨?_, H2⟩
      rw [conversation_cons, conversation_cons]
      exact ⟨ec, ed, conversation_nil _ _⟩
    · obtain ⟨zr, gr, H⟩ := ih hl.2 es h
      refine ⟨zr, gr, fun a ha hb hz hd => ?_⟩
      obtain ⟨H1, H2⟩ := H a ha hb hz hd
      have hac : ¬ AnswersCross a D p := by unfold AnswersCross; rw [ha]; exact hc
      have hstep : edgeStep g u val mt D p (es, h) = (es, h) := by unfold edgeStep; rw [if_neg hc]
      have m3 : edgeCalls a g.gpos g.step D p = [] := by unfold edgeCalls; rw [if_neg hac]
      rw [List.foldl_cons, hstep, H1, List.flatMap_cons, List.flatMap_cons, m3, if_neg hac]
      exact ⟨by simp, H2⟩

/-! ### The points -/

theorem coords_eq (h : Int) : coords h = irange (-h) (h + 1) := by
  unfold coords irange
  rw [show h + 1 - -h = 2 * h + 1 by ring]

theorem gridPoints_eq (h : Int) : gridPoints h = nestPts (-h) (h + 1) (h + 1) (h + 1) := by
  unfold gridPoints nestPts
  rw [coords_eq]

theorem gridPoints_nodup (h : Int) : (gridPoints h).Nodup := by rw [gridPoints_eq]; exact nestPts_nodup _ _ _ _

theorem mem_gridPoints {h : Int} {p : IVec3} : p ∈ gridPoints h ↔ InCube h p := by
  rw [gridPoints_eq, mem_nestPts]
  unfold InCube
  omega

theorem mem_edgePoints {h : Int} {D : Axis} {p : IVec3} : p ∈ edgePoints h D ↔ InCube h p ∧ InCube h (edgeEnd D p) := by
  unfold edgePoints
  simp [mem_gridPoints]

theorem edgePoints_X {h : Int} (hh : 0 ≤ h) : edgePoints h .X = nestPts (-h) h (h + 1) (h + 1) := by
  unfold edgePoints
  rw [gridPoints_eq]
  unfold nestPts
  rw [List.filter_flatMap]
  refine flatMap_agree fun y hy => ?_
  rw [mem_irange] at hy
  rw [irange_succ (show -h ≤ h by omega), List.flatMap_append, List.filter_append, List.filter_flatMap]
  have e1 : ∀ x ∈ irange (-h) h, ((irange (-h) h ++ [h]).map fun z => (⟨x, y, z⟩ : IVec3)).filter
      (fun p => decide (InCube h (edgeEnd .X p))) = (irange (-h) h ++ [h]).map fun z => (⟨x, y, z⟩ : IVec3) := by
    intro x hx
    rw [mem_irange] at hx
    rw [List.filter_eq_self]
    intro p hp
    rw [← irange_succ (show -h ≤ h by omega), List.mem_map] at hp
    obtain ⟨z, hz, rfl⟩ := hp
    rw [mem_irange] at hz
    rw [decide_eq_true_eq]; simp only [InCube, edgeEnd, shift]
    omega
  rw [flatMap_agree e1]
  have e2 : List.filter (fun p => decide (InCube h (edgeEnd .X p))) ([h].flatMap fun x =>
      (irange (-h) h ++ [h]).map fun z => (⟨x, y, z⟩ : IVec3)) = [] := by
    rw [List.filter_eq_nil_iff]
    intro p hp
    simp only [List.mem_flatMap, List.mem_singleton, List.mem_map] at hp
    obtain ⟨x, rfl, z, hz, rfl⟩ := hp
    rw [decide_eq_true_eq]; simp only [InCube, edgeEnd, shift]
    omega
  rw [e2, List.append_nil]

theorem edgePoints_Y {h : Int} (hh : 0 ≤ h) : edgePoints h .Y = nestPts (-h) (h + 1) (h + 1) h := by
  unfold edgePoints
  rw [gridPoints_eq]
  unfold nestPts
  conv_lhs => rw [irange_succ (show -h ≤ h by omega)]
  rw [← irange_succ (show -h ≤ h by omega), irange_succ (show -h ≤ h by omega), List.flatMap_append, List.filter_append, List.filter_flatMap]
  have e2 : List.filter (fun p => decide (InCube h (edgeEnd .Y p))) ([h].flatMap fun y => (irange (-h) h ++ [h]).flatMap fun x =>
      (irange (-h) h ++ [h]).map fun z => (⟨x, y, z⟩ : IVec3)) = [] := by
    rw [List.filter_eq_nil_iff]
    intro p hp
    simp only [List.mem_flatMap, List.mem_singleton, List.mem_map] at hp
    obtain ⟨y, rfl, x, hx, z, hz, rfl⟩ := hp
    rw [decide_eq_true_eq]; simp only [InCube, edgeEnd, shift]
    omega
  rw [e2, List.append_nil]
  refine flatMap_agree fun y hy => ?_
  rw [mem_irange] at hy
  rw [List.filter_eq_self]
  intro p hp
  rw [← irange_succ (show -h ≤ h by omega)] at hp
  simp only [List.mem_flatMap, List.mem_map, mem_irange] at hp
  obtain ⟨x, hx, z, hz, rfl⟩ := hp
  rw [decide_eq_true_eq]; simp only [InCube, edgeEnd, shift]
  omega

theorem edgePoints_Z {h : Int} (hh : 0 ≤ h) : edgePoints h .Z = nestPts (-h) (h + 1) h (h + 1) := by
  unfold edgePoints
  rw [gridPoints_eq]
  unfold nestPts
  rw [List.filter_flatMap]
  refine flatMap_agree fun y hy => ?_
  rw [mem_irange] at hy
  rw [List.filter_flatMap]
  refine flatMap_agree fun x hx => ?_
  rw [mem_irange] at hx
  rw [irange_succ (show -h ≤ h by omega), List.map_append, List.filter_append]
  have e2 : List.filter (fun p => decide (InCube h (edgeEnd .Z p))) ([h].map fun z => (⟨x, y, z⟩ : IVec3)) = [] := by
    rw [List.filter_eq_nil_iff]
    intro p hp
    simp only [List.mem_singleton, List.mem_map] at hp
    obtain ⟨z, rfl, rfl⟩ := hp
    rw [decide_eq_true_eq]; simp only [InCube, edgeEnd, shift]
    omega
  rw [e2, List.append_nil, List.filter_eq_self]
  intro p hp
  simp only [List.mem_map, mem_irange] at hp
  obtain ⟨z, hz, rfl⟩ := hp
  rw [decide_eq_true_eq]; simp only [InCube, edgeEnd, shift]
  omega

theorem flatMap_block {α β : Type} (l : List α) (F : α → List β) (n : Nat) (hF : ∀ a, (F a).length = n) (i j : Nat) (hj : j < n) :
    (l.flatMap F)[i * n + j]? = l[i]?.bind fun a => (F a)[j]? := by
  induction l generalizing i with
  | nil => simp
  | cons a l ih =>
    rw [List.flatMap_cons]
    cases i with
    | zero =>
      rw [List.getElem?_append_left (by rw [hF]; omega)]
      simp
    | succ i =>
      rw [List.getElem?_append_right (by rw [hF, Nat.succ_mul]; omega), hF]
      rw [show (i + 1) * n + j - n = i * n + j by rw [Nat.succ_mul]; omega, ih]
      simp

theorem flatMap_block_length {α β : Type} (l : List α) (F : α → List β) (n : Nat) (hF : ∀ a, (F a).length = n) :
    (l.flatMap F).length = l.length * n := by
  induction l with
  | nil => simp
  | cons a l ih => rw [List.flatMap_cons, List.length_append, hF, ih, List.length_cons]; ring

theorem coords_length {h : Int} : (coords h).length = (2 * h + 1).toNat := by simp [coords]

theorem coords_get {h : Int} {v : Int} (hv : -h ≤ v ∧ v ≤ h) : (coords h)[(v + h).toNat]? = some v := by
  unfold coords
  rw [List.getElem?_map, List.getElem?_range (by omega)]
  simp only [Option.map_some]
  congr 1
  omega

theorem gridPoints_get {g : Grid K} (hg : g.WF) {p : IVec3} (hp : InCube g.half p) : (gridPoints g.half)[g.vidx p]? = some p := by
  have hh := hg.half_eq
  have hn : (2 * g.half + 1).toNat = g.size + 1 := by omega
  have hl : (coords g.half).length = g.size + 1 := by rw [coords_length, hn]
  obtain ⟨x, y, z⟩ := p
  obtain ⟨hx, hy, hz⟩ := hp
  simp only at hx hy hz
  have hv : g.vidx ⟨x, y, z⟩ = (y + g.half).toNat * ((g.size + 1) * (g.size + 1)) + ((x + g.half).toNat * (g.size + 1) + (z + g.half).toNat) := by
    have := Grid.vidx_int (g := g) (p := ⟨x, y, z⟩) ⟨hx, hy, hz⟩
    zify
    rw [this, Int.toNat_of_nonneg (by omega), Int.toNat_of_nonneg (by omega), Int.toNat_of_nonneg (by omega)]
    ring
  have b1 : (z + g.half).toNat < g.size + 1 := by omega
  have b2 : (x + g.half).toNat * (g.size + 1) + (z + g.half).toNat < (g.size + 1) * (g.size + 1) := by
    have : (x + g.half).toNat + 1 ≤ g.size + 1 := by omega
    have := Nat.mul_le_mul_right (g.size + 1) this
    rw [Nat.succ_mul] at this
    omega
  rw [hv]
  unfold gridPoints
  rw [flatMap_block _ _ ((g.size + 1) * (g.size + 1)) ?_ _ _ b2, coords_get hy, Option.bind_some,
    flatMap_block _ _ (g.size + 1) ?_ _ _ b1, coords_get hx, Option.bind_some, List.getElem?_map, coords_get hz]
  · rfl
  · intro x; rw [List.length_map, hl]
  · intro y
    rw [flatMap_block_length _ _ (g.size + 1), hl]
    intro x; rw [List.length_map, hl]

theorem gridPoints_length {g : Grid K} (hg : g.WF) : (gridPoints g.half).length = (g.size + 1) ^ 3 := by
  have hh := hg.half_eq
  have hl : (coords g.half).length = g.size + 1 := by rw [coords_length]; omega
  unfold gridPoints
  rw [flatMap_block_length _ _ ((g.size + 1) * (g.size + 1)), hl]
  · ring
  · intro y
    rw [flatMap_block_length _ _ (g.size + 1), hl]
    intro x; rw [List.length_map, hl]

theorem gridPoints_sorted (h : Int) : (gridPoints h).Pairwise LexYXZ := by
  have hn := fun a b => irange_pairwise a b
  rw [gridPoints_eq]
  unfold nestPts
  rw [List.pairwise_flatMap]
  refine ⟨fun y _ => ?_, ?_⟩
  · rw [List.pairwise_flatMap]
    refine ⟨fun x _ => ?_, ?_⟩
    · rw [List.pairwise_map]
      exact (hn _ _).imp (by intro a b hab; exact .inr ⟨rfl, .inr ⟨rfl, hab⟩⟩)
    · refine (hn _ _).imp ?_
      intro a b hab p hp q hq
      simp only [List.mem_map] at hp hq
      obtain ⟨_, _, rfl⟩ := hp
      obtain ⟨_, _, rfl⟩ := hq
      exact .inr ⟨rfl, .inl hab⟩
  · refine (hn _ _).imp ?_
    intro a b hab p hp q hq
    simp only [List.mem_flatMap, List.mem_map] at hp hq
    obtain ⟨_, _, _, _, rfl⟩ := hp
    obtain ⟨_, _, _, _, rfl⟩ := hq
    exact .inl hab

theorem allEdgesR_flat {g : Grid K} (hh : 0 ≤ g.half) {f : ScalarField K} {sv : ZeroFinder K} {D : Axis} :
    allEdgesR g f sv D = (edgePoints g.half D).flatMap (edgeOutR g f sv D) := by
  have key : ∀ ye xe ze, (irange (-g.half) ye).flatMap (fun y => (irange (-g.half) xe).flatMap fun x =>
      (irange (-g.half) ze).flatMap fun z => edgeOutR g f sv D ⟨x, y, z⟩) = (nestPts (-g.half) xe ze ye).flatMap (edgeOutR g f sv D) := by
    intro ye xe ze
    unfold nestPts
    rw [List.flatMap_assoc]
    refine flatMap_agree fun y _ => ?_
    rw [List.flatMap_assoc]
    refine flatMap_agree fun x _ => ?_
    rw [List.flatMap_map]
  unfold allEdgesR rowYR rowXR rowZR
  rw [key]
  cases D
  · rw [edgePoints_X hh]; rfl
  · rw [edgePoints_Y hh]; rfl
  · rw [edgePoints_Z hh]; rfl

theorem flat_filter_map {α β : Type} (l : List α) (c : α → Prop) [DecidablePred c] (F : α → β) :
    (l.flatMap fun p => if c p then [F p] else []) = (l.filter fun p => c p).map F := by
  induction l with
  | nil => rfl
  | cons p l ih => rw [List.flatMap_cons, ih]; by_cases hc : c p <;> simp [hc]

/-! ### C86 -/

/-- C86 (calls).  Whatever the user code answers - it may remember earlier calls, count, draw random numbers - `fill` succeeds, and the
calls it makes are: for every grid point in order one question for the value and, if the answer is not positive, one for the material; then for
every edge along X, then Y, then Z whose two answers differ in sign one call of the zero finder with those answers and one question for the
gradient at the point found; nothing else.  The grid it leaves records the answers given in these calls. -/
theorem C86_calls {g : Grid K} (hg : g.WF) (u : UserCode K) (h : List (Call K)) :
    ∃ (g' : Grid K) (a : Answers K),
      g.fillH u h = some (g', h ++ fillCalls g.maxCoord a (samplePos g.globalPos g.step g.maxCoord) (worldPos g.globalPos g.step) g.step) ∧
      Conversation u h (fillCalls g.maxCoord a (samplePos g.globalPos g.step g.maxCoord) (worldPos g.globalPos g.step) g.step) ∧
      g'.WF ∧ (g'.size = g.size ∧ g'.half = g.half ∧ g'.globalPos = g.globalPos ∧ g'.step = g.step) ∧
      (∀ p, InCube g.maxCoord p → g'.at p = some (pointMaterial a p)) ∧
      ∀ D, g'.edges D = ((edgePoints g.maxCoord D).filter fun p => AnswersCross a D p).map
        (answerRecord a (worldPos g.globalPos g.step) g.step D) := by
  have hhalf : 0 ≤ g.half := by have := hg.half_eq; omega
  obtain ⟨s, es, hs⟩ := fillValuesH_spec hg u h
  rw [nestY_eq, ← gridPoints_eq] at hs
  obtain ⟨val, mt0, HS⟩ := sample_fold g u (gridPoints_nodup g.half) [] [] h
  obtain ⟨mt, hmt⟩ : ∃ mt, mt = fun p => pointMaterial (⟨val, mt0, fun _ _ => 0, fun _ _ => ⟨0, 0, 0⟩⟩ : Answers K) p := ⟨_, rfl⟩
  obtain ⟨H1, H2⟩ := HS ⟨val, mt0, fun _ _ => 0, fun _ _ => ⟨0, 0, 0⟩⟩ rfl rfl
  rw [H1] at hs
  simp only [List.nil_append, Prod.mk.injEq] at hs
  obtain ⟨hv, hm, hh1⟩ := hs
  have hS : SampledH g val mt s.1.values s.1.mat := by
    constructor
    · intro p hp; rw [hv, List.getElem?_map, gridPoints_get hg hp]; rfl
    · intro p hp; rw [hm, List.map_map, List.getElem?_map, gridPoints_get hg hp, hmt]; rfl
  obtain ⟨sx, ex, hx⟩ := fillXH_spec (u := u) hg hS s.2
  obtain ⟨sy, ey, hy⟩ := fillYH_spec (u := u) hg hS sx.2
  obtain ⟨sz, ez, hz⟩ := fillZH_spec (u := u) hg hS sy.2
  rw [nestY_eq, ← edgePoints_X hhalf] at hx
  rw [nestY_eq, ← edgePoints_Y hhalf] at hy
  rw [nestY_eq, ← edgePoints_Z hhalf] at hz
  have nd : ∀ D, (edgePoints g.half D).Nodup := fun D => (gridPoints_nodup g.half).filter _
  obtain ⟨zx, gx, HX⟩ := edge_fold g u val mt .X (nd .X) [] s.2
  obtain ⟨zy, gy, HY⟩ := edge_fold g u val mt .Y (nd .Y) [] sx.2
  obtain ⟨zz, gz, HZ⟩ := edge_fold g u val mt .Z (nd .Z) [] sy.2
  obtain ⟨a, av, am, ax, ay, az, bx, bY, bz⟩ : ∃ a : Answers K, a.value = val ∧ a.material = mt0 ∧ a.zero .X = zx ∧ a.zero .Y = zy ∧ a.zero .Z = zz ∧
      a.grad .X = gx ∧ a.grad .Y = gy ∧ a.grad .Z = gz :=
    ⟨⟨val, mt0, fun D => match D with | .X => zx | .Y => zy | .Z => zz, fun D => match D with | .X => gx | .Y => gy | .Z => gz⟩,
      rfl, rfl, rfl, rfl, rfl, rfl, rfl, rfl⟩
  have hpm : pointMaterial a = mt := by rw [hmt]; funext p; unfold pointMaterial; rw [av, am]
  obtain ⟨X1, X2⟩ := HX a av hpm ax bx
  obtain ⟨Y1, Y2⟩ := HY a av hpm ay bY
  obtain ⟨Z1, Z2⟩ := HZ a av hpm az bz
  obtain ⟨-, S2⟩ := HS a av am
  have hpc : (gridPoints g.half).flatMap (pointCalls ⟨val, mt0, fun _ _ => 0, fun _ _ => ⟨0, 0, 0⟩⟩ g.spos) =
      (gridPoints g.half).flatMap (pointCalls a g.spos) := flatMap_agree fun q _ => by unfold pointCalls; rw [av, am]
  rw [hpc] at hh1
  rw [X1] at hx
  rw [Y1] at hy
  rw [Z1] at hz
  simp only [List.nil_append, Prod.mk.injEq] at hx hy hz
  have hfm : ∀ D, (edgePoints g.half D).flatMap (fun p => if AnswersCross a D p then [answerRecord a g.gpos g.step D p] else []) =
      ((edgePoints g.half D).filter fun p => AnswersCross a D p).map (answerRecord a g.gpos g.step D) := fun D => flat_filter_map _ _ _
  have hcalls : sz.2 = h ++ fillCalls g.half a g.spos g.gpos g.step := by
    rw [hz.2, hy.2, hx.2, hh1]
    unfold fillCalls
    simp only [List.append_assoc]
  refine ⟨{ g with mat := s.1.mat, edgeX := sx.1.edges, edgeY := sy.1.edges, edgeZ := sz.1.edges }, a, ?_, ?_, ?_, ⟨rfl, rfl, rfl, rfl⟩, ?_, ?_⟩
  · unfold Grid.fillH
    simp only [es, ex, ey, ez, Option.bind_eq_bind, Option.bind_some]
    rw [hcalls]
    rfl
  · show Conversation u h (fillCalls g.half a g.spos g.gpos g.step)
    unfold fillCalls
    rw [conversation_append, conversation_append, conversation_append]
    rw [hy.2, hx.2, hh1] at Z2
    rw [hx.2, hh1] at Y2
    rw [hh1] at X2
    simp only [List.append_assoc] at X2 Y2 Z2 ⊢
    exact ⟨⟨⟨S2, X2⟩, Y2⟩, Z2⟩
  · refine ⟨hg.two_le, hg.le, hg.half_eq, ?_⟩
    show s.1.mat.length = _
    rw [hm, List.length_map, List.length_map, gridPoints_length hg, dataSizeOf_eq hg.le]
    ring
  · intro p hp
    have hwf : Grid.WF { g with mat := s.1.mat, edgeX := sx.1.edges, edgeY := sy.1.edges, edgeZ := sz.1.edges } := by
      refine ⟨hg.two_le, hg.le, hg.half_eq, ?_⟩
      show s.1.mat.length = _
      rw [hm, List.length_map, List.length_map, gridPoints_length hg, dataSizeOf_eq hg.le]
      ring
    unfold Grid.at
    rw [Grid.pointToIndex_eq hwf hp]
    have := hS.mats p hp
    rw [← hpm] at this
    simp only [Grid.readMat]
    show (s.1.mat[g.vidx p]?).join = _
    rw [this]; rfl
  · intro D
    cases D
    · exact hx.1.trans (hfm .X)
    · exact hy.1.trans (hfm .Y)
    · exact hz.1.trans (hfm .Z)

theorem conversation_mem {u : UserCode K} {h cs : List (Call K)} (hc : Conversation u h cs) {c : Call K} (hm : c ∈ cs) :
    ∃ pre, Answered u (h ++ pre) c := by
  obtain ⟨pre, post, e⟩ := List.append_of_mem hm
  exact ⟨pre, hc pre c post e⟩

section
variable {h : Int} {a : Answers K} {sample pos : IVec3 → Vec3 K} {step : K}

theorem value_mem {p : IVec3} (hp : InCube h p) : Call.value (sample p) (a.value p) ∈ fillCalls h a sample pos step := by
  unfold fillCalls
  simp only [List.mem_append, List.mem_flatMap]
  exact .inl (.inl (.inl ⟨p, mem_gridPoints.2 hp, by simp [pointCalls]⟩))

theorem material_mem {p : IVec3} (hp : InCube h p) (hv : ¬ a.value p > 0) :
    Call.material (sample p) (a.value p) (a.material p) ∈ fillCalls h a sample pos step := by
  unfold fillCalls
  simp only [List.mem_append, List.mem_flatMap]
  exact .inl (.inl (.inl ⟨p, mem_gridPoints.2 hp, by simp [pointCalls, hv]⟩))

theorem edgeCalls_mem {D : Axis} {p : IVec3} (hp : p ∈ edgePoints h D) {c : Call K} (hc : c ∈ edgeCalls a pos step D p) :
    c ∈ fillCalls h a sample pos step := by
  unfold fillCalls
  simp only [List.mem_append, List.mem_flatMap]
  cases D
  · exact .inl (.inl (.inr ⟨p, hp, hc⟩))
  · exact .inl (.inr ⟨p, hp, hc⟩)
  · exact .inr ⟨p, hp, hc⟩
end

/-- C86 (consistency).  If the user code never names the material `Empty` for a non-positive value and never answers NaN for a value, the grid is
consistent - also if the field gives different answers for one and the same point. -/
theorem C86_consistent {g g' : Grid K} (hg : g.WF) {u : UserCode K} {h h' : List (Call K)}
    (hmat : ∀ h q v, v ≤ 0 → u.material h q v ≠ .Empty) (hnan : ∀ h q, NotNaN (u.value h q)) (hf : g.fillH u h = some (g', h')) :
    Filled g' := by
  obtain ⟨g'', a, e, hc, hwf, ⟨hs, hh, hp, ht⟩, hm, he⟩ := C86_calls hg u h
  rw [hf] at e
  injection e with e
  obtain ⟨rfl, rfl⟩ := Prod.mk.injEq .. ▸ e
  have hmax : g'.maxCoord = g.maxCoord := hh
  have hval : ∀ p, InCube g.maxCoord p → NotNaN (a.value p) := by
    intro p hp
    obtain ⟨pre, hA⟩ := conversation_mem hc (value_mem hp)
    simp only [Answered] at hA
    rw [hA]; exact hnan _ _
  have hsolid : ∀ p, InCube g.maxCoord p → solidAt g' p = decide (a.value p ≤ 0) := by
    intro p hp
    unfold solidAt
    rw [hm p hp]
    unfold pointMaterial
    have hn := hval p hp
    by_cases hv : a.value p ≤ 0
    · have hp' : ¬ a.value p > 0 := fun x => (hn.1 x) hv
      obtain ⟨pre, hA⟩ := conversation_mem hc (material_mem hp hp')
      simp only [Answered] at hA
      rw [if_neg hp', hA]; simp [hv, hmat _ _ _ hv]
    · rw [if_pos (hn.2 hv)]; simp [hv]
  have hmem : ∀ D e, e ∈ g'.edges D ↔ ∃ p, InCube g.maxCoord p ∧ InCube g.maxCoord (edgeEnd D p) ∧ AnswersCross a D p ∧
      e = answerRecord a (worldPos g.globalPos g.step) g.step D p := by
    intro D e
    rw [he D]
    simp only [List.mem_map, List.mem_filter, mem_edgePoints, decide_eq_true_eq]
    constructor
    · rintro ⟨p, ⟨⟨h1, h2⟩, h3⟩, rfl⟩; exact ⟨p, h1, h2, h3, rfl⟩
    · rintro ⟨p, h1, h2, h3, rfl⟩; exact ⟨p, ⟨⟨h1, h2⟩, h3⟩, rfl⟩
  have hcr : ∀ D p, InCube g.maxCoord p → InCube g.maxCoord (edgeEnd D p) →
      (solidAt g' p ≠ solidAt g' (edgeEnd D p) ↔ AnswersCross a D p) := by
    intro D p h1 h2
    rw [hsolid _ h1, hsolid _ h2]
    unfold AnswersCross
    simp only [ne_eq, decide_eq_decide]
  refine ⟨hwf, ?_, ?_, ?_, ?_, ?_, ?_⟩
  · intro p hp; exact ⟨_, hm p (by rwa [hmax] at hp)⟩
  · intro D p
    unfold CrossingEdge
    rw [hmax, edgeVertices_iff]
    constructor
    · rintro ⟨e, he, rfl⟩
      obtain ⟨p, h1, h2, h3, rfl⟩ := (hmem D e).1 he
      exact ⟨⟨h1, h2⟩, (hcr D p h1 h2).2 h3⟩
    · rintro ⟨⟨h1, h2⟩, h3⟩
      exact ⟨_, (hmem D _).2 ⟨p, h1, h2, (hcr D p h1 h2).1 h3, rfl⟩, rfl⟩
  · intro D e he
    obtain ⟨p, h1, h2, h3, rfl⟩ := (hmem D e).1 he
    rfl
  · intro D e he
    obtain ⟨p, h1, h2, h3, rfl⟩ := (hmem D e).1 he
    exact (hsolid p h1).symm
  · intro D e he
    obtain ⟨p, h1, h2, h3, rfl⟩ := (hmem D e).1 he
    unfold answerRecord
    by_cases hv : a.value p ≤ 0
    · simp only [hv, decide_true, if_true]; exact hm _ h1
    · simp only [hv, decide_false, if_false]; exact hm _ h2
  · intro D
    rw [he D, List.pairwise_map]
    apply List.Pairwise.filter
    unfold edgePoints
    apply List.Pairwise.filter
    exact gridPoints_sorted _

/-- C86 (ordinary user code).  For a field and a zero finder that are functions, this is the `fill` of the other theorems. -/
theorem C86_ofField {g : Grid K} (hg : g.WF) (f : ScalarField K) (sv : ZeroFinder K) (h : List (Call K)) :
    (g.fillH (.ofField f sv) h).map Prod.fst = g.fill f sv := by
  have hhalf : 0 ≤ g.half := by have := hg.half_eq; omega
  obtain ⟨g1, a, e1, hc, hwf, ⟨hs, hh, hp, ht⟩, hm, he⟩ := C86_calls hg (.ofField f sv) h
  obtain ⟨g2, e2, hs2, hh2, hp2, ht2, hl2, hm2, he2⟩ := fillR_spec hg f sv
  have hval : ∀ p, InCube g.half p → a.value p = f.value (g.spos p) := by
    intro p hp
    obtain ⟨pre, hA⟩ := conversation_mem hc (value_mem hp)
    exact hA
  have hmt : ∀ p, InCube g.half p → pointMaterial a p = sampleMat g f p := by
    intro p hp
    unfold pointMaterial sampleMat
    rw [hval p hp]
    by_cases hv : f.value (g.spos p) > 0
    · rw [if_pos hv, if_pos hv]
    · rw [if_neg hv, if_neg hv]
      obtain ⟨pre, hA⟩ := conversation_mem hc (material_mem hp (by rwa [hval p hp]))
      rw [hval p hp] at hA
      exact hA
  have hed : ∀ D, g1.edges D = g2.edges D := by
    intro D
    rw [he D, he2 D, allEdgesR_flat hhalf]
    rw [← flat_filter_map]
    refine flatMap_agree fun p hpm => ?_
    obtain ⟨h1, h2⟩ := mem_edgePoints.1 hpm
    have hcr : AnswersCross a D p ↔ Crosses f g.spos D p := by
      unfold AnswersCross Crosses
      rw [hval p h1, hval _ h2]
    unfold edgeOutR
    by_cases hx : AnswersCross a D p
    · rw [if_pos (hcr.1 hx)]
      have hz : a.zero D p = sampledCoord f sv g.spos g.gpos g.step D p := by
        obtain ⟨pre, hA⟩ := conversation_mem hc (edgeCalls_mem hpm (c := .find D (g.gpos p) ((g.gpos p).get D + g.step) (a.value p)
          (a.value (edgeEnd D p)) (a.zero D p)) (by unfold edgeCalls; rw [if_pos hx]; exact List.mem_cons_self))
        simp only [Answered] at hA
        rw [hA, hval p h1, hval _ h2]
        cases D <;> rfl
      have hg : a.grad D p = f.grad ((g.gpos p).set D (a.zero D p)) := by
        obtain ⟨pre, hA⟩ := conversation_mem hc (edgeCalls_mem hpm (c := .grad ((g.gpos p).set D (a.zero D p)) (a.grad D p))
          (by unfold edgeCalls; rw [if_pos hx]; exact List.mem_cons_of_mem _ List.mem_cons_self))
        exact hA
      have : answerRecord a g.gpos g.step D p = sampledRecord f sv g.spos g.gpos g.step D p := by
        unfold answerRecord sampledRecord
        rw [hg, hz, hval p h1, hmt p h1, hmt _ h2, sampleMat_eq, sampleMat_eq]
      rw [if_pos hx, ← this]; rfl
    · rw [if_neg (fun c => hx (hcr.2 c))]
      simp [hx]
  have hmat : g1.mat = g2.mat := by
    apply List.ext_getElem?
    intro i
    by_cases hi : i < g.dataSize
    · obtain ⟨p, hpc, rfl⟩ := Grid.exists_vidx hg hi
      rw [hm2 p hpc]
      have h3 := hm p hpc
      unfold Grid.at at h3
      have hp' : InCube g1.half p := by rw [hh]; exact hpc
      rw [Grid.pointToIndex_eq hwf hp'] at h3
      have hv : g1.vidx p = g.vidx p := by unfold Grid.vidx; rw [hs, hh]
      simp only [Grid.readMat, hv] at h3
      rw [← hmt p hpc]
      revert h3
      cases g1.mat[g.vidx p]? with
      | none => intro h3; cases h3
      | some m => intro h3; rw [← h3]; rfl
    · have l1 : g1.mat.length = g.dataSize := by rw [hwf.mat_len, hs]; rfl
      rw [List.getElem?_eq_none (by omega), List.getElem?_eq_none (by omega)]
  rw [e1, e2, Option.map_some]
  obtain ⟨size1, half1, mat1, x1, y1, z1, pos1, step1⟩ := g1
  obtain ⟨size2, half2, mat2, x2, y2, z2, pos2, step2⟩ := g2
  have k1 := hed .X
  have k2 := hed .Y
  have k3 := hed .Z
  simp only [Grid.edges] at *
  subst hs hh hp ht hs2 hh2 hp2 ht2 hmat k1 k2 k3
  rfl

theorem countP_flat {α β : Type} (P : β → Bool) (f : α → List β) (l : List α) :
    (l.flatMap f).countP P = (l.map fun x => (f x).countP P).sum := by
  induction l with
  | nil => rfl
  | cons x l ih => rw [List.flatMap_cons, List.countP_append, ih]; rfl

theorem sum_const {α : Type} (f : α → Nat) (n : Nat) (l : List α) (h : ∀ x ∈ l, f x = n) : (l.map f).sum = l.length * n := by
  induction l with
  | nil => simp
  | cons x l ih =>
    rw [List.map_cons, List.sum_cons, ih fun y hy => h y (List.mem_cons_of_mem _ hy), h x List.mem_cons_self, List.length_cons]; ring

theorem sum_filter {α : Type} (f : α → Nat) (P : α → Bool) (l : List α) (h : ∀ x ∈ l, f x = if P x then 1 else 0) :
    (l.map f).sum = (l.filter P).length := by
  induction l with
  | nil => simp
  | cons x l ih =>
    rw [List.map_cons, List.sum_cons, ih fun y hy => h y (List.mem_cons_of_mem _ hy), h x List.mem_cons_self, List.filter_cons]
    split_ifs <;> simp [Nat.add_comm]

theorem filterMap_flat {α β γ : Type} (P : β → Option γ) (f : α → List β) (l : List α) :
    (l.flatMap f).filterMap P = l.flatMap fun x => (f x).filterMap P := by
  induction l with
  | nil => rfl
  | cons x l ih => rw [List.flatMap_cons, List.filterMap_append, ih]; rfl

/-- C86 (cost).  `fill` asks the field for exactly one value per grid point, at the points where it samples, in the order of `gridPoints`; for at most
one material per grid point; and calls the zero finder and the gradient exactly once for every edge it stores. -/
theorem C86_counts {g g' : Grid K} (hg : g.WF) {u : UserCode K} {h h' : List (Call K)} (hf : g.fillH u h = some (g', h')) :
    ∃ cs, h' = h ++ cs ∧ cs.filterMap valueAt = (gridPoints g.maxCoord).map (samplePos g.globalPos g.step g.maxCoord) ∧
      cs.countP isValue = (g.size + 1) ^ 3 ∧ cs.countP isMaterial ≤ (g.size + 1) ^ 3 ∧
      cs.countP isFind = (g'.edges .X).length + (g'.edges .Y).length + (g'.edges .Z).length ∧
      cs.countP isGrad = (g'.edges .X).length + (g'.edges .Y).length + (g'.edges .Z).length := by
  obtain ⟨g'', a, e, hc, hwf, -, hm, he⟩ := C86_calls hg u h
  rw [hf] at e
  injection e with e
  obtain ⟨rfl, rfl⟩ := Prod.mk.injEq .. ▸ e
  have hlen : (gridPoints g.maxCoord).length = (g.size + 1) ^ 3 := gridPoints_length hg
  have pv : ∀ p, (pointCalls a (samplePos g.globalPos g.step g.maxCoord) p).countP isValue = 1 := by
    intro p; unfold pointCalls; split_ifs <;> rfl
  have pm : ∀ p, (pointCalls a (samplePos g.globalPos g.step g.maxCoord) p).countP isMaterial = if decide (¬ a.value p > 0) then 1 else 0 := by
    intro p; unfold pointCalls; by_cases hv : a.value p > 0 <;> simp only [hv, if_true, if_false, not_true, not_false_eq_true, decide_true, decide_false] <;> rfl
  have pf : ∀ p, (pointCalls a (samplePos g.globalPos g.step g.maxCoord) p).countP isFind = 0 := by
    intro p; unfold pointCalls; split_ifs <;> rfl
  have pg : ∀ p, (pointCalls a (samplePos g.globalPos g.step g.maxCoord) p).countP isGrad = 0 := by
    intro p; unfold pointCalls; split_ifs <;> rfl
  have pa : ∀ p, (pointCalls a (samplePos g.globalPos g.step g.maxCoord) p).filterMap valueAt = [samplePos g.globalPos g.step g.maxCoord p] := by
    intro p; unfold pointCalls; split_ifs <;> rfl
  have ev : ∀ D p, (edgeCalls a (worldPos g.globalPos g.step) g.step D p).countP isValue = 0 := by
    intro D p; unfold edgeCalls; split_ifs <;> rfl
  have em : ∀ D p, (edgeCalls a (worldPos g.globalPos g.step) g.step D p).countP isMaterial = 0 := by
    intro D p; unfold edgeCalls; split_ifs <;> rfl
  have ef : ∀ D p, (edgeCalls a (worldPos g.globalPos g.step) g.step D p).countP isFind = if decide (AnswersCross a D p) then 1 else 0 := by
    intro D p; unfold edgeCalls; by_cases hx : AnswersCross a D p <;> simp only [hx, if_true, if_false, decide_true, decide_false] <;> rfl
  have eg : ∀ D p, (edgeCalls a (worldPos g.globalPos g.step) g.step D p).countP isGrad = if decide (AnswersCross a D p) then 1 else 0 := by
    intro D p; unfold edgeCalls; by_cases hx : AnswersCross a D p <;> simp only [hx, if_true, if_false, decide_true, decide_false] <;> rfl
  have ea : ∀ D p, (edgeCalls a (worldPos g.globalPos g.step) g.step D p).filterMap valueAt = [] := by
    intro D p; unfold edgeCalls; split_ifs <;> rfl
  have hel : ∀ D, (g'.edges D).length = ((edgePoints g.maxCoord D).filter fun p => AnswersCross a D p).length := by
    intro D; rw [he D, List.length_map]
  have z : ∀ l : List IVec3, (l.flatMap fun _ => ([] : List (Vec3 K))) = [] := fun l => by simp
  refine ⟨_, rfl, ?_, ?_, ?_, ?_, ?_⟩ <;> unfold fillCalls
  · simp only [List.filterMap_append, filterMap_flat, ea, z, List.append_nil]
    simp only [pa]
    rw [← List.map_eq_flatMap]
  · simp only [List.countP_append, countP_flat, ev]
    rw [sum_const _ 1 _ fun p _ => pv p, sum_const _ 0 _ fun _ _ => rfl, sum_const _ 0 _ fun _ _ => rfl, sum_const _ 0 _ fun _ _ => rfl, hlen]
    ring
  · simp only [List.countP_append, countP_flat, em]
    rw [sum_filter _ (fun p => decide (¬ a.value p > 0)) _ fun p _ => pm p, sum_const _ 0 _ fun _ _ => rfl, sum_const _ 0 _ fun _ _ => rfl,
      sum_const _ 0 _ fun _ _ => rfl, ← hlen]
    simpa using List.length_filter_le _ _
  · simp only [List.countP_append, countP_flat, pf]
    rw [sum_const _ 0 _ fun _ _ => rfl, sum_filter _ (fun p => decide (AnswersCross a .X p)) _ fun p _ => ef .X p,
      sum_filter _ (fun p => decide (AnswersCross a .Y p)) _ fun p _ => ef .Y p,
      sum_filter _ (fun p => decide (AnswersCross a .Z p)) _ fun p _ => ef .Z p, hel, hel, hel]
    ring
  · simp only [List.countP_append, countP_flat, pg]
    rw [sum_const _ 0 _ fun _ _ => rfl, sum_filter _ (fun p => decide (AnswersCross a .X p)) _ fun p _ => eg .X p,
      sum_filter _ (fun p => decide (AnswersCross a .Y p)) _ fun p _ => eg .Y p,
      sum_filter _ (fun p => decide (AnswersCross a .Z p)) _ fun p _ => eg .Z p, hel, hel, hel]
    ring

/-- User code that answers `1` and `-1` in turn, whatever the point; its finder returns the near end and its gradient counts the calls. -/
def turnsCode : UserCode Int where
  value h _ := if h.countP isValue % 2 = 0 then 1 else -1
  material _ _ _ := .Stone
  find _ D a _ _ _ := a.get D
  grad h _ := ⟨h.length, 0, 0⟩

/-- Non-vacuity: a field that answers in turns is no function - filling a second time turns the grid inside out - but every grid it leaves is
consistent and can be meshed. -/
example : ∃ (g0 g1 g2 : Grid Int) (h1 h2 : List (Call Int)), g0.Reachable ∧ g0.fillH turnsCode [] = some (g1, h1) ∧ Filled g1 ∧
    g1.fillH turnsCode h1 = some (g2, h2) ∧ Filled g2 ∧ (marchingCubes id g1).isSome ∧ g1.at ⟨0, 0, 0⟩ ≠ g2.at ⟨0, 0, 0⟩ ∧
    h1.countP isFind = 54 := by
  obtain ⟨g0, hg0⟩ : ∃ g0 : Grid Int, Grid.mk' 2 ⟨0, 0, 0⟩ 1 = .ok g0 := ⟨_, rfl⟩
  have hr : g0.Reachable := .mk hg0
  have hmat : ∀ (h : List (Call Int)) q v, v ≤ 0 → turnsCode.material h q v ≠ .Empty := fun _ _ _ _ => by
    show Material.Stone ≠ Material.Empty; decide
  have hnan : ∀ (h : List (Call Int)) q, NotNaN (turnsCode.value h q) := fun _ _ => ⟨not_le.2, not_le.1⟩
  obtain ⟨g1, a, e1, -, w1, -⟩ := C86_calls hr.wf turnsCode []
  obtain ⟨g2, b, e2, -, w2, -⟩ := C86_calls w1 turnsCode _
  have f1 := C86_consistent hr.wf hmat hnan e1
  have f2 := C86_consistent w1 hmat hnan e2
  refine ⟨g0, g1, g2, _, _, hr, e1, f1, e2, f2, ?_, ?_, ?_⟩
  · rw [mc_result f1]; rfl
  all_goals
    have key : ((g0.fillH turnsCode []).bind fun r1 => (r1.1.fillH turnsCode r1.2).map fun r2 =>
        (r1.1.at ⟨0, 0, 0⟩, r2.1.at ⟨0, 0, 0⟩, r1.2.countP isFind)) = some (some .Stone, some .Empty, 54) := by
      cases hg0
      decide +kernel
    rw [e1, Option.bind_some, e2, Option.map_some] at key
    simp only [Option.some.injEq, Prod.mk.injEq] at key
  · rw [key.1, key.2.1]; decide
  · exact key.2.2

end Isomesh
