import Verif.Proofs.MdcNode

/-! Running `clusterCell` on a whole tree. -/

namespace Isomesh
open Spec Relation

set_option linter.unusedSectionVars false
variable {K : Type} [Add K] [_root_.Sub K] [Mul K] [Div K] [Neg K] [Zero K] [One K] [OfNat K 2] [OfScientific K] [NatCast K] [IntCast K]
  [Fabs K] [Elem K] [LinearOrder K] [RoundedLaws K]

variable {env : DcEnv K} {g : Grid K} {options : Qef K 3}

theorem mdcClusterCell_ok : ∀ (t : MdcNode) (c : Cube) (depth : Nat) (q q' : Qef K 3) (h h' : MdcHeap K) (t' : MdcNode), MTree g t c depth →
    CubeIn g.maxCoord c → HeapOK h → Clean h → Fresh h t → (leafAddrs t).Nodup → (leafAddrs t).length + 3 ≤ kBadIndex →
    SameOptions options q → mdcClusterCell env t c.lo c.k (q, h) = some ((q', h'), t') →
    SameOptions options q' ∧ Clu env g options h h' t t' c depth := by
  intro t
  induction t with
  | leaf l =>
    intro c depth q q' h h' t' ht _ ok hc hf hn _ ho hr
    cases hr
    exact ⟨ho, clu_leaf ok hc ht hf hn⟩
  | inner d ch ih =>
    intro c depth q q' h h' t' ht hin ok hc hf hn hS ho hr
    rw [mdcClusterCell] at hr
    split at hr
    · cases hr
    rename_i s ch' hth
    have hle : ∀ i, (leafAddrs (ch i)).length ≤ (leafAddrs (.inner d ch)).length := by
      intro i
      refine (List.subperm_of_subset ((leafAddrs_disj hn).1 i) ?_).length_le
      intro a ha
      exact mem_leafAddrs_inner.2 ⟨i, ha⟩
    obtain ⟨σ, e1, e2, e3, e4⟩ := threadM_seq 8 _ (KidInv options ch)
      (fun i s s' n => Clu env g options s.2 s'.2 (ch i) n (c.octant i) (depth + 1)) (by
        intro i s s' n hs hb
        rw [childCorner_eq] at hb
        obtain ⟨a1, a2⟩ := ih i (c.octant i) (depth + 1) s.1 s'.1 s.2 s'.2 n (ht.2.2 i) (cubeIn_sub ht.1 hin i) hs.ok hs.clean
          (hs.fresh i (le_refl _)) ((leafAddrs_disj hn).1 i) (by have := hle i; omega) hs.opt hb
        exact ⟨kidInv_step hn hs a1 a2, a2⟩)
      (by
        refine ⟨ho, ok, hc, fun j _ => ?_⟩
        have : ∀ a ∈ leafAddrs (ch j), a ∈ leafAddrs (.inner d ch) := fun a ha => mem_leafAddrs_inner.2 ⟨j, ha⟩
        exact ⟨fun a ha => hf.lt a (this a ha), fun a ha => hf.up a (this a ha), fun a ha => hf.down a (this a ha)⟩) hth
    have hk := kids_ok hn e3 e4
    rw [e1, e2] at hk
    dsimp only at hk
    have hcalls := mdc_calls_ok (t := .inner d ch') (c := c) (depth := depth) ⟨ht.1, ht.2.1, hk.tree⟩ hin
    rw [kids_calls (d := d) hk d] at hcalls
    have hcc : ∀ call ∈ mdcTrav.cellCalls ch', CallSkip call ∨ ∃ A, CallTo call A ∧ ∀ i, A i ∈ leafAddrs (.inner d ch) := by
      intro call hcall
      refine hcalls call ?_
      rw [Trav.cellProc]
      exact List.mem_append_right _ hcall
    have ho8 : SameOptions options s.1 := by have := (e3 8 (le_refl _)).opt; rwa [e2] at this
    obtain ⟨vs, f, cnt, n1, -, n2, -⟩ := clusterNode_eq (env := env) hk.ok hk.clean hS (fun a ha => ext_lt hk.ext (hf.lt a ha)) hcc c.lo c.k s.1
    split at hr
    · cases hr
    rename_i s2 list hnode
    obtain ⟨q2, h2⟩ := s2
    obtain ⟨rfl, rfl, -, ws, rfl, m2, m3⟩ := n2 q2 h2 list hnode
    cases hr
    rw [reset_eq ho8] at m3 ⊢
    exact ⟨sameOptions_reset options, clu_inner ht.1 hin hf hk ht.2.1 n1 m2 m3⟩

/-! ### Completion -/

/-- Vertices of the leaves have error systems of at most twelve planes. -/
def BaseQ (h : MdcHeap K) (t : MdcNode) : Prop :=
  ∀ a ∈ leafAddrs t, ∃ v st, h[a]? = some v ∧ v.qef = some st ∧ 1 ≤ st.mpCnt ∧ st.mpCnt ≤ 12

theorem baseQ_ext {h h' : MdcHeap K} (e : Ext h h') {t : MdcNode} (hb : BaseQ h t) : BaseQ h' t := by
  intro a ha
  obtain ⟨v, st, h1, h2, h3⟩ := hb a ha
  obtain ⟨p, h4, -⟩ := e.get a v h1
  exact ⟨_, st, h4, h2, h3⟩

theorem solved_count {c : Cube} {q1 : Qef K 3} {v : MdcVertex K} (hs : Solved env c q1 v) (hr : q1.usedRows ≤ qef3Rows) (hc : q1.pointsCount ≠ 0)
    (hB : q1.pointsCount < 2 ^ 30) (hp : 0 < q1.pinvTolerance) : ∃ st, v.qef = some st ∧ st.mpCnt = q1.pointsCount := by
  obtain ⟨q2, x, qs, s1, -, -, s4, s5⟩ := hs
  obtain ⟨q2', x', t1, t2, t3, -⟩ := solveBox_some (env := env) hr hc hp c.lo c.k
  rw [s1] at t1; cases t1
  obtain ⟨q3, s, u1, u2, -⟩ := state_some (tiny := env.tiny) t2 (by rw [t3]; exact hB)
  rw [s4] at u1; cases u1
  exact ⟨_, s5, u2.trans t3⟩

open Classical in
/-- How many vertices of leaves `x` replaces. -/
noncomputable def weight (h : MdcHeap K) (t : MdcNode) (x : Nat) : Nat := (leafAddrs t).countP fun a => decide (Anc h a x)

theorem sum_countP {P : Nat → Nat → Bool} {Q : Nat → Bool} {ks : List Nat} (hnd : ks.Nodup) (L : List Nat) (hPQ : ∀ y ∈ ks, ∀ a ∈ L, P y a = true → Q a = true)
    (hu : ∀ y ∈ ks, ∀ z ∈ ks, ∀ a ∈ L, P y a = true → P z a = true → y = z) : (ks.map fun y => L.countP (P y)).sum ≤ L.countP Q := by
  induction L with
  | nil => simp
  | cons a L ih =>
    have ih' := ih (fun y hy b hb => hPQ y hy b (List.mem_cons_of_mem _ hb)) (fun y hy z hz b hb => hu y hy z hz b (List.mem_cons_of_mem _ hb))
    have e : (ks.map fun y => (a :: L).countP (P y)).sum = (ks.map fun y => L.countP (P y)).sum + ks.countP (fun y => P y a) := by
      clear ih ih' hnd hPQ hu
      induction ks with
      | nil => rfl
      | cons y ks ih => simp only [List.countP_cons] at ih; simp only [List.map_cons, List.sum_cons, List.countP_cons]; omega
    rw [e, List.countP_cons]
    have h1 : ks.countP (fun y => P y a) ≤ if Q a = true then 1 else 0 := by
      have hle : ks.countP (fun y => P y a) ≤ 1 := by
        rw [List.countP_eq_length_filter]
        have hn := hnd.filter (fun y => P y a)
        match hl : ks.filter (fun y => P y a), hn with
        | [], _ => simp
        | [_], _ => simp
        | y :: z :: l, hn =>
          have hy : y ∈ ks.filter (fun y => P y a) := by rw [hl]; simp
          have hz : z ∈ ks.filter (fun y => P y a) := by rw [hl]; simp
          rw [List.mem_filter] at hy hz
          have := hu y hy.1 z hz.1 a (by simp) hy.2 hz.2
          subst this
          simp at hn
      split
      · exact hle
      · rename_i hq
        rw [Nat.le_zero, List.countP_eq_zero]
        intro y hy hp
        exact hq (hPQ y hy a (by simp) hp)
    omega

theorem par_common {h : MdcHeap K} (ok : HeapOK h) {a y z v : Nat} (h1 : Anc h a y) (h2 : Anc h a z) (h3 : Par h y v) (h4 : Par h z v) : y = z := by
  have key : ∀ y z, Par h y v → Par h z v → Anc h y z → y = z := by
    intro y z h3 h4 h5
    rcases ReflTransGen.cases_head h5 with e | ⟨w, h6, h7⟩
    · exact e
    · rw [par_fun h6 h3] at h7
      have := anc_le ok h7
      have := ok _ _ h4
      omega
  rcases anc_chain h1 h2 with h5 | h5
  · exact key y z h3 h4 h5
  · exact (key z y h4 h3 h5).symm

/-- Merging states of bounded weight. -/
theorem joint_total {h : MdcHeap K} {n : Nat → Nat} : ∀ (ks : List Nat) (q : Qef K 3),
    (∀ x ∈ ks, ∃ v st, h[x]? = some v ∧ v.qef = some st ∧ 1 ≤ st.mpCnt ∧ st.mpCnt ≤ n x) → q.usedRows ≤ qef3Rows →
    q.pointsCount + (ks.map n).sum < 2 ^ 30 → (q.pointsCount = 0 → q.featureDim = 0) →
    ∃ q', jointQef h env q ks = some q' ∧ q'.usedRows ≤ qef3Rows ∧ SameOptions q q' ∧ q'.pointsCount ≤ q.pointsCount + (ks.map n).sum ∧
      (1 ≤ q.pointsCount ∨ ks ≠ [] → 1 ≤ q'.pointsCount) := by
  intro ks
  induction ks with
  | nil => intro q _ hr _ _; exact ⟨q, rfl, hr, sameOptions_refl q, by simp, by simp⟩
  | cons x ks ih =>
    intro q hk hr hB hd
    obtain ⟨v, st, e1, e2, e3, e4⟩ := hk x (by simp)
    obtain ⟨q1, m1, m2, m3, m4⟩ := merge_some (tiny := env.tiny) (by simp [qef3Rows] : 2 * (3 + 1) ≤ qef3Rows) hr st
    rw [List.map_cons, List.sum_cons] at hB
    have hc := combine_cnt (a := massOf q) (b := stateMass st) (by simp only [massOf, stateMass]; omega) e3 hd
    rw [← m3] at hc
    simp only [massOf, stateMass] at hc
    obtain ⟨q', j1, j2, j3, j4, j5⟩ := ih q1 (fun y hy => hk y (by simp [hy])) m2 (by omega) (by omega)
    refine ⟨q', ?_, j2, sameOptions_trans m4 j3, ?_, fun _ => j5 (Or.inl hc.1)⟩
    · rw [show x :: ks = [x] ++ ks from rfl, joint_append, joint_one e1 e2, m1]
      exact j1
    · rw [List.map_cons, List.sum_cons]; omega

theorem weight_sub {h : MdcHeap K} {d : Nat × List Nat} {ch : Fin 8 → MdcNode} (hn : (leafAddrs (.inner d ch)).Nodup) (i : Fin 8) (x : Nat) :
    weight h (ch i) x ≤ weight h (.inner d ch) x := by
  unfold weight
  refine (List.subperm_of_subset ((leafAddrs_disj hn).1 i) ?_).countP_le _
  intro a ha
  exact mem_leafAddrs_inner.2 ⟨i, ha⟩

theorem weight_le (h : MdcHeap K) (t : MdcNode) (x : Nat) : weight h t x ≤ (leafAddrs t).length := List.countP_le_length

theorem weight_kids {h : MdcHeap K} (ok : HeapOK h) {t : MdcNode} {ks : List Nat} {v : Nat} (hnd : ks.Nodup) (hk : ∀ x ∈ ks, Par h x v) :
    (ks.map (weight h t)).sum ≤ weight h t v := by
  classical
  unfold weight
  refine sum_countP (P := fun y a => decide (Anc h a y)) (Q := fun a => decide (Anc h a v)) hnd _ ?_ ?_
  · intro y hy a _ hp
    exact decide_eq_true ((of_decide_eq_true hp).tail (hk y hy))
  · intro y hy z hz a _ h1 h2
    exact par_common ok (of_decide_eq_true h1) (of_decide_eq_true h2) (hk y hy) (hk z hz)

theorem mul_sum (ks : List Nat) (n : Nat → Nat) : (ks.map fun x => 12 * n x).sum = 12 * (ks.map n).sum := by
  induction ks with
  | nil => rfl
  | cons x ks ih => simp only [List.map_cons, List.sum_cons, ih]; omega

/-- The error system of every vertex has at most twelve planes for each vertex of a leaf it replaces. -/
theorem count_ok {h : MdcHeap K} (ok : HeapOK h) (hp : 0 < options.pinvTolerance) : ∀ {t : MdcNode} {c : Cube}, Clustered env options h t c → BaseQ h t →
    (leafAddrs t).Nodup → 12 * (leafAddrs t).length < 2 ^ 30 → ∀ x ∈ addrs t,
    ∃ v st, h[x]? = some v ∧ v.qef = some st ∧ 1 ≤ st.mpCnt ∧ st.mpCnt ≤ 12 * weight h t x := by
  intro t
  induction t with
  | leaf l =>
    intro c hc hb hn hB x hx
    have hx' : x ∈ leafAddrs (.leaf l) := by simpa [leafAddrs, Oct.leaves, addrs] using hx
    obtain ⟨v, st, h1, h2, h3, h4⟩ := hb x hx'
    have : 1 ≤ weight h (.leaf l) x := by
      classical
      unfold weight
      exact List.countP_pos_iff.2 ⟨x, hx', by simpa using (ReflTransGen.refl : Anc h x x)⟩
    exact ⟨v, st, h1, h2, h3, by omega⟩
  | inner d ch ih =>
    intro c hc hb hn hB x hx
    have hle : ∀ i, (leafAddrs (ch i)).length ≤ (leafAddrs (.inner d ch)).length := by
      intro i
      refine (List.subperm_of_subset ((leafAddrs_disj hn).1 i) ?_).length_le
      intro a ha
      exact mem_leafAddrs_inner.2 ⟨i, ha⟩
    have hch : ∀ i, ∀ y ∈ addrs (ch i), ∃ v st, h[y]? = some v ∧ v.qef = some st ∧ 1 ≤ st.mpCnt ∧ st.mpCnt ≤ 12 * weight h (.inner d ch) y := by
      intro i y hy
      obtain ⟨v, st, h1, h2, h3, h4⟩ := ih i (hc.2 i) (fun a ha => hb a (mem_leafAddrs_inner.2 ⟨i, ha⟩)) ((leafAddrs_disj hn).1 i)
        (by have := hle i; omega) y hy
      exact ⟨v, st, h1, h2, h3, by have := weight_sub (h := h) hn i y; omega⟩
    rcases mem_addrs_inner.1 hx with h1 | ⟨i, h1⟩
    · obtain ⟨-, ⟨ks, qc, w, k1, k2, k3, k4, k5, k6, k7, -⟩, -⟩ := hc.1 x h1
      have hw := weight_kids ok (t := .inner d ch) k2 (fun y hy => (k3 y).1 hy)
      have hwl := weight_le h (.inner d ch) x
      have e := mul_sum ks (weight h (.inner d ch))
      obtain ⟨q', j1, j2, j3, j4, j5⟩ := joint_total (env := env) (h := h) (n := fun y => 12 * weight h (.inner d ch) y) ks options.reset
        (fun y hy => by obtain ⟨i, hi⟩ := k4 y hy; exact hch i y hi) (by simp [Qef.reset]) (by rw [e]; simp only [Qef.reset]; omega) (by simp [Qef.reset])
      rw [k5] at j1; cases j1
      rw [e] at j4
      simp only [Qef.reset] at j4
      have j6 := j5 (Or.inr k1)
      obtain ⟨st, s1, s2⟩ := solved_count k7 j2 (by omega) (by omega) (by rw [j3.1]; exact hp)
      exact ⟨w, st, k6, s1, by omega, by omega⟩
    · exact hch i x h1

theorem threadM_seq_total {S α : Type} (n : Nat) (b : Fin n → S → Option (S × α)) (I : Nat → S → Prop)
    (hb : ∀ (i : Fin n) s, I i s → ∃ s' a, b i s = some (s', a) ∧ I (i + 1) s') {s : S} (hs : I 0 s) : ∃ r, threadM n b s = some r := by
  induction n generalizing s I with
  | zero => exact ⟨_, rfl⟩
  | succ n ih =>
    obtain ⟨s1, a, h1, h2⟩ := hb 0 s hs
    obtain ⟨r, h3⟩ := ih (fun i => b i.succ) (fun i => I (i + 1)) (fun i => hb i.succ) h2
    rw [threadM, h1]
    dsimp only
    rw [h3]
    exact ⟨_, rfl⟩

theorem mdcClusterCell_total (hp : 0 < options.pinvTolerance) : ∀ (t : MdcNode) (c : Cube) (depth : Nat) (q : Qef K 3) (h : MdcHeap K), MTree g t c depth →
    CubeIn g.maxCoord c → HeapOK h → Clean h → Fresh h t → (leafAddrs t).Nodup → 12 * (leafAddrs t).length < 2 ^ 30 →
    SameOptions options q → BaseQ h t → ∃ r, mdcClusterCell env t c.lo c.k (q, h) = some r := by
  intro t
  induction t with
  | leaf l => intro c depth q h _ _ _ _ _ _ _ _ _; exact ⟨_, rfl⟩
  | inner d ch ih =>
    intro c depth q h ht hin ok hc hf hn hS ho hbq
    have hle : ∀ i, (leafAddrs (ch i)).length ≤ (leafAddrs (.inner d ch)).length := by
      intro i
      refine (List.subperm_of_subset ((leafAddrs_disj hn).1 i) ?_).length_le
      intro a ha
      exact mem_leafAddrs_inner.2 ⟨i, ha⟩
    have hS3 : (leafAddrs (.inner d ch)).length + 3 ≤ kBadIndex := by simp only [kBadIndex]; omega
    have h0 : KidInv options ch 0 (q, h) := by
      refine ⟨ho, ok, hc, fun j _ => ?_⟩
      have : ∀ a ∈ leafAddrs (ch j), a ∈ leafAddrs (.inner d ch) := fun a ha => mem_leafAddrs_inner.2 ⟨j, ha⟩
      exact ⟨fun a ha => hf.lt a (this a ha), fun a ha => hf.up a (this a ha), fun a ha => hf.down a (this a ha)⟩
    have hstep : ∀ (i : Fin 8) (s s' : Qef K 3 × MdcHeap K) n, KidInv options ch i s → mdcClusterCell env (ch i) (childCorner c.lo (c.k - 1) i) (c.k - 1) s = some (s', n) →
        KidInv options ch (i + 1) s' ∧ Clu env g options s.2 s'.2 (ch i) n (c.octant i) (depth + 1) := by
      intro i s s' n hs hb
      rw [childCorner_eq] at hb
      obtain ⟨a1, a2⟩ := mdcClusterCell_ok (ch i) (c.octant i) (depth + 1) s.1 s'.1 s.2 s'.2 n (ht.2.2 i) (cubeIn_sub ht.1 hin i) hs.ok hs.clean
        (hs.fresh i (le_refl _)) ((leafAddrs_disj hn).1 i) (by have := hle i; omega) hs.opt hb
      exact ⟨kidInv_step hn hs a1 a2, a2⟩
    obtain ⟨⟨s, ch'⟩, hth⟩ := threadM_seq_total 8 (fun i s => mdcClusterCell env (ch i) (childCorner c.lo (c.k - 1) i) (c.k - 1) s)
      (fun i s => KidInv options ch i s ∧ BaseQ s.2 (.inner d ch)) (by
        rintro i s ⟨hs, hb⟩
        obtain ⟨⟨s', n⟩, hr⟩ := ih i (c.octant i) (depth + 1) s.1 s.2 (ht.2.2 i) (cubeIn_sub ht.1 hin i) hs.ok hs.clean
          (hs.fresh i (le_refl _)) ((leafAddrs_disj hn).1 i) (by have := hle i; omega) hs.opt (fun a ha => hb a (mem_leafAddrs_inner.2 ⟨i, ha⟩))
        have hr' : mdcClusterCell env (ch i) (childCorner c.lo (c.k - 1) i) (c.k - 1) s = some (s', n) := by
          rw [childCorner_eq]; exact hr
        obtain ⟨a1, a2⟩ := hstep i s s' n hs hr'
        exact ⟨s', n, hr', a1, baseQ_ext a2.ext hb⟩) ⟨h0, hbq⟩
    obtain ⟨σ, e1, e2, e3, e4⟩ := threadM_seq 8 _ (KidInv options ch)
      (fun i s s' n => Clu env g options s.2 s'.2 (ch i) n (c.octant i) (depth + 1)) (fun i s s' n hs hb => hstep i s s' n hs hb) h0 hth
    have hk := kids_ok hn e3 e4
    rw [e1, e2] at hk
    dsimp only at hk
    have hleaf := kids_calls (d := d) hk d
    have hcalls := mdc_calls_ok (t := .inner d ch') (c := c) (depth := depth) ⟨ht.1, ht.2.1, hk.tree⟩ hin
    rw [hleaf] at hcalls
    have hcc : ∀ call ∈ mdcTrav.cellCalls ch', CallSkip call ∨ ∃ A, CallTo call A ∧ ∀ i, A i ∈ leafAddrs (.inner d ch) := by
      intro call hcall
      refine hcalls call ?_
      rw [Trav.cellProc]
      exact List.mem_append_right _ hcall
    have ho8 : SameOptions options s.1 := by have := (e3 8 (le_refl _)).opt; rwa [e2] at this
    have hlt8 : ∀ a ∈ leafAddrs (.inner d ch), a < s.2.length := fun a ha => ext_lt hk.ext (hf.lt a ha)
    obtain ⟨vs, f, cnt, n1, -, -, n2⟩ := clusterNode_eq (env := env) hk.ok hk.clean hS3 hlt8 hcc c.lo c.k s.1
    have hb8 : BaseQ s.2 (.inner d ch') := by
      intro a ha
      rw [hleaf] at ha
      exact baseQ_ext hk.ext hbq a ha
    have hloc : ∀ i, leafAddrs (ch' i) = leafAddrs (ch i) := fun i => by rw [leafAddrs_locate _ (c.octant i), hk.loc i, ← leafAddrs_locate]
    have hcnt : ∀ i, ∀ y ∈ addrs (ch' i), ∃ v st, s.2[y]? = some v ∧ v.qef = some st ∧ 1 ≤ st.mpCnt ∧ st.mpCnt ≤ 12 * weight s.2 (.inner d ch') y := by
      intro i y hy
      obtain ⟨v, st, h1, h2, h3, h4⟩ := count_ok hk.ok hp (hk.cl i) (fun a ha => hb8 a (mem_leafAddrs_inner.2 ⟨i, ha⟩))
        (by rw [hloc]; exact (leafAddrs_disj hn).1 i) (by rw [hloc]; have := hle i; omega) y hy
      exact ⟨v, st, h1, h2, h3, by have := weight_sub (h := s.2) (d := d) (ch := ch') (by rw [hleaf]; exact hn) i y; omega⟩
    have hvs : ∀ x ∈ vs, ∃ v st, s.2[x]? = some v ∧ v.qef = some st ∧ 1 ≤ st.mpCnt ∧ st.mpCnt ≤ 12 * weight s.2 (.inner d ch') x := by
      intro x hx
      obtain ⟨a, ha, rfl⟩ := n1.src x hx
      obtain ⟨i, hi⟩ := mem_leafAddrs_inner.1 ha
      exact hcnt i _ (ordered_anc (hk.ordered i) (leafAddrs_sub (by rw [hloc]; exact hi)) (topOf_top hk.ok (hlt8 a ha)).1)
    obtain ⟨r, hr⟩ := n2 (fun x hx => by obtain ⟨v, st, h1, h2, -⟩ := hvs x hx; exact ⟨v, h1, by rw [h2]; exact Option.some_ne_none _⟩) (by
      intro cno hcno
      have hgs : ∀ x ∈ grp vs f cno vs, x ∈ vs := fun x hx => (List.mem_filter.1 hx).1
      have hsum : ((grp vs f cno vs).map (weight s.2 (.inner d ch'))).sum ≤ (leafAddrs (.inner d ch)).length := by
        classical
        rw [← hleaf]
        refine le_trans (sum_countP (P := fun y a => decide (Anc s.2 a y)) (Q := fun _ => true) (n1.nodup.filter _) _ (fun _ _ _ _ _ => rfl) ?_) List.countP_le_length
        intro y hy z hz a _ h1 h2
        have top : ∀ x ∈ vs, ∀ b, ¬ Par s.2 x b := by
          intro x hx b hb
          obtain ⟨a, ha, rfl⟩ := n1.src x hx
          exact (topOf_top hk.ok (hlt8 a ha)).2 b hb
        exact top_unique ⟨of_decide_eq_true h1, top y (hgs y hy)⟩ ⟨of_decide_eq_true h2, top z (hgs z hz)⟩
      have e := mul_sum (grp vs f cno vs) (weight s.2 (.inner d ch'))
      obtain ⟨qc, j1, j2, j3, j4, j5⟩ := joint_total (env := env) (h := s.2) (n := fun y => 12 * weight s.2 (.inner d ch') y) (grp vs f cno vs) s.1.reset
        (fun y hy => hvs y (hgs y hy)) (by simp [Qef.reset]) (by rw [e]; simp only [Qef.reset]; omega) (by simp [Qef.reset])
      rw [e] at j4
      simp only [Qef.reset] at j4
      have hne : grp vs f cno vs ≠ [] := by
        obtain ⟨x, hx, hxc⟩ := n1.hit cno hcno
        intro hnil
        have : x ∈ grp vs f cno vs := List.mem_filter.2 ⟨hx, by simpa using hxc⟩
        rw [hnil] at this; cases this
      have j6 := j5 (Or.inr hne)
      refine ⟨qc, j1, mdcSolveVertex_total _ _ _ j2 (by omega) (by rw [j3.1]; show 0 < s.1.pinvTolerance; rw [ho8.1]; exact hp) (by omega)⟩)
    obtain ⟨s2, list⟩ := r
    rw [mdcClusterCell, hth]
    dsimp only
    rw [hr]
    exact ⟨_, rfl⟩

end Isomesh
