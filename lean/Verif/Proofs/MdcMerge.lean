import Verif.Proofs.MdcCluster

/-! Clustering of the vertices of one node of an `MDC_Octree`: numbering the clusters and creating their vertices. -/

namespace Isomesh
open Relation Spec

set_option linter.unusedSectionVars false
variable {K : Type} [Add K] [_root_.Sub K] [Mul K] [Div K] [Neg K] [Zero K] [One K] [OfNat K 2] [OfScientific K] [NatCast K] [IntCast K]
  [Fabs K] [Elem K] [LinearOrder K] [RoundedLaws K]

/-! ### Numbers of the clusters -/

theorem renumber_spec {d : DSU} {rep depth : Nat → Nat} (hd : DSU.Inv d rep depth) (hb : d.count ≤ kBadIndex) :
    ∃ (r : MdcRenumber) (f : Nat → Nat), mdcRenumber d = some r ∧ r.setIdx.length = d.count ∧
      (∀ i < d.count, r.setIdx[i]? = some (f i)) ∧ (∀ i < d.count, ∀ j < d.count, (f i = f j ↔ rep i = rep j)) ∧
      (∀ i < d.count, f i < r.cnt) ∧ (∀ c < r.cnt, ∃ i < d.count, f i = c) := by
  have key : ∀ m ≤ d.count, ∃ (r : MdcRenumber) (F : Nat → Nat),
      (List.range m).foldlM mdcRenumberStep ⟨d, List.replicate d.count kBadIndex, 0⟩ = some r ∧ DSU.Inv r.dsu rep depth ∧ r.dsu.count = d.count ∧
      r.setIdx.length = d.count ∧ (∀ j < d.count, ((∃ i < m, i = j ∨ rep i = j) → r.setIdx[j]? = some (F (rep j))) ∧
        ((¬ ∃ i < m, i = j ∨ rep i = j) → r.setIdx[j]? = some kBadIndex)) ∧
      (∀ i < m, ∀ j < m, F (rep i) = F (rep j) → rep i = rep j) ∧ (∀ i < m, F (rep i) < r.cnt) ∧
      (∀ c < r.cnt, ∃ i < m, F (rep i) = c) ∧ r.cnt ≤ m := by
    intro m
    induction m with
    | zero =>
      intro _
      refine ⟨_, fun _ => 0, rfl, hd, rfl, by simp, ?_, by simp, by simp, by simp, by simp⟩
      intro j hj
      refine ⟨by rintro ⟨i, hi, -⟩; omega, fun _ => ?_⟩
      simp [hj]
    | succ m ih =>
      intro hm
      obtain ⟨r, F, e, h1, h2, h3, h4, h5, h6, h7, h8⟩ := ih (by omega)
      obtain ⟨d', a1, a2, a3, -⟩ := DSU.getSetLeader_spec h1 (i := m) (by omega)
      obtain ⟨b1, -, b2, -⟩ := h1.root (i := m) (by omega)
      rw [h2] at b1
      have seen : (∃ i < m, i = rep m ∨ rep i = rep m) ↔ ∃ i < m, rep i = rep m := by
        constructor
        · rintro ⟨i, hi, rfl | h⟩
          · exact ⟨rep m, hi, b2⟩
          · exact ⟨i, hi, h⟩
        · rintro ⟨i, hi, h⟩; exact ⟨i, hi, Or.inr h⟩
      rw [List.range_succ, List.foldlM_append, e]
      simp only [Option.bind_eq_bind, Option.bind_some, List.foldlM_cons, List.foldlM_nil]
      unfold mdcRenumberStep
      simp only [a1, Option.bind_eq_bind, Option.bind_some]
      by_cases hs : ∃ i < m, rep i = rep m
      · have hg : r.setIdx[rep m]? = some (F (rep m)) := by have := (h4 _ b1).1 (seen.2 hs); rwa [b2] at this
        have hF : F (rep m) < r.cnt := by obtain ⟨i, hi, ei⟩ := hs; rw [← ei]; exact h6 i hi
        simp only [hg, Option.bind_some]
        rw [if_neg (by omega)]
        simp only [Option.bind_some, hg, DSU.write_lt _ (show m < r.setIdx.length by omega)]
        refine ⟨_, F, rfl, a2, by dsimp only; omega, by simp [h3], ?_, ?_, ?_, ?_, by dsimp only; omega⟩
        · intro j hj
          dsimp only
          rw [List.getElem?_set]
          by_cases hjm : m = j
          · subst hjm
            rw [if_pos rfl, if_pos (by omega)]
            exact ⟨fun _ => rfl, fun h => absurd ⟨m, by omega, Or.inl rfl⟩ h⟩
          · rw [if_neg hjm]
            have : (∃ i < m + 1, i = j ∨ rep i = j) ↔ ∃ i < m, i = j ∨ rep i = j := by
              constructor
              · rintro ⟨i, hi, h⟩
                rcases Nat.lt_or_ge i m with h' | h'
                · exact ⟨i, h', h⟩
                · have : i = m := by omega
                  subst this
                  rcases h with h | h
                  · exact absurd h hjm
                  · obtain ⟨i', hi', e'⟩ := hs; exact ⟨i', hi', Or.inr (e'.trans h)⟩
              · rintro ⟨i, hi, h⟩; exact ⟨i, by omega, h⟩
            rw [this]
            exact h4 j hj
        · have : ∀ i < m + 1, ∃ i' < m, rep i' = rep i := by
            intro i hi
            rcases Nat.lt_or_ge i m with h' | h'
            · exact ⟨i, h', rfl⟩
            · rw [show i = m by omega]; exact hs
          intro i hi j hj
          obtain ⟨i', hi', ei⟩ := this i hi
          obtain ⟨j', hj', ej⟩ := this j hj
          rw [← ei, ← ej]
          exact h5 i' hi' j' hj'
        · intro i hi
          rcases Nat.lt_or_ge i m with h' | h'
          · exact h6 i h'
          · rw [show i = m by omega]; exact hF
        · intro c hc
          obtain ⟨i, hi, ei⟩ := h7 c hc
          exact ⟨i, by omega, ei⟩
      · have hg : r.setIdx[rep m]? = some kBadIndex := (h4 _ b1).2 (by rw [seen]; exact hs)
        simp only [hg, Option.bind_some]
        rw [if_pos trivial]
        have hw : (r.setIdx.set (rep m) r.cnt)[rep m]? = some r.cnt := by rw [List.getElem?_set, if_pos rfl, if_pos (by omega)]
        simp only [DSU.write_lt _ (show rep m < r.setIdx.length by omega), Option.bind_some, hw,
          DSU.write_lt _ (show m < (r.setIdx.set (rep m) r.cnt).length by rw [List.length_set]; omega)]
        refine ⟨_, Function.update F (rep m) r.cnt, rfl, a2, by dsimp only; omega, by simp [h3], ?_, ?_, ?_, ?_, by dsimp only; omega⟩
        · intro j hj
          dsimp only
          rw [List.getElem?_set, List.getElem?_set, List.length_set]
          by_cases hjm : m = j
          · subst hjm
            rw [if_pos rfl, if_pos (by omega)]
            exact ⟨fun _ => by simp, fun h => absurd ⟨m, by omega, Or.inl rfl⟩ h⟩
          · rw [if_neg hjm]
            by_cases hjr : rep m = j
            · subst hjr
              rw [if_pos rfl, if_pos (by omega), b2]
              exact ⟨fun _ => by simp, fun h => absurd ⟨m, by omega, Or.inr rfl⟩ h⟩
            · rw [if_neg hjr]
              have hiff : (∃ i < m + 1, i = j ∨ rep i = j) ↔ ∃ i < m, i = j ∨ rep i = j := by
                constructor
                · rintro ⟨i, hi, h⟩
                  rcases Nat.lt_or_ge i m with h' | h'
                  · exact ⟨i, h', h⟩
                  · have : i = m := by omega
                    subst this
                    rcases h with h | h
                    · exact absurd h hjm
                    · exact absurd h hjr
                · rintro ⟨i, hi, h⟩; exact ⟨i, by omega, h⟩
              rw [hiff]
              refine ⟨fun h => ?_, (h4 j hj).2⟩
              rw [(h4 j hj).1 h, Function.update_of_ne]
              intro e'
              obtain ⟨i, hi, rfl | e''⟩ := h
              · exact hs ⟨i, hi, e'⟩
              · obtain ⟨-, -, b3, -⟩ := h1.root (i := i) (by omega)
                rw [e''] at b3
                exact hs ⟨i, hi, by rw [e'', ← b3]; exact e'⟩
        · intro i hi j hj
          have hne : ∀ i < m, rep i ≠ rep m := fun i hi h => hs ⟨i, hi, h⟩
          rcases Nat.lt_or_ge i m with h' | h' <;> rcases Nat.lt_or_ge j m with h'' | h''
          · rw [Function.update_of_ne (hne i h'), Function.update_of_ne (hne j h'')]; exact h5 i h' j h''
          · rw [show j = m by omega, Function.update_of_ne (hne i h'), Function.update_self]
            intro h; have := h6 i h'; omega
          · rw [show i = m by omega, Function.update_of_ne (hne j h''), Function.update_self]
            intro h; have := h6 j h''; omega
          · intro _; rw [show i = m by omega, show j = m by omega]
        · intro i hi
          dsimp only
          rcases Nat.lt_or_ge i m with h' | h'
          · rw [Function.update_of_ne (fun h => hs ⟨i, h', h⟩)]; have := h6 i h'; omega
          · rw [show i = m by omega, Function.update_self]; omega
        · intro c hc
          dsimp only at hc
          rcases Nat.lt_or_ge c r.cnt with h' | h'
          · obtain ⟨i, hi, ei⟩ := h7 c h'
            exact ⟨i, by omega, by rw [Function.update_of_ne (fun h => hs ⟨i, hi, h⟩)]; exact ei⟩
          · exact ⟨m, by omega, by rw [Function.update_self]; omega⟩
  obtain ⟨r, F, e, h1, h2, h3, h4, h5, h6, h7, h8⟩ := key d.count (le_refl _)
  refine ⟨r, fun i => F (rep i), e, h3, fun i hi => (h4 i hi).1 ⟨i, hi, Or.inl rfl⟩, fun i hi j hj => ⟨h5 i hi j hj, fun h => by dsimp only; rw [h]⟩, h6, h7⟩

/-! ### The merging loop -/

section
variable (h : MdcHeap K) (vs : List Nat) (f : Nat → Nat)

/-- Number of the cluster of a collected vertex. -/
def clusterNo (x : Nat) : Nat := f (vs.idxOf x)

/-- The heap when the collected vertices in `pre` have been linked to their cluster. -/
noncomputable def mergeH (pre : List Nat) : MdcHeap K :=
  h.mapIdx fun a v => if a ∈ pre then { v with surfaceIdx := kBadIndex, parent := some (h.length + clusterNo vs f a) }
    else { v with surfaceIdx := if a ∈ vs then vs.idxOf a else kBadIndex }

/-- Vertices of cluster `c` in `pre`. -/
def grp (c : Nat) (pre : List Nat) : List Nat := pre.filter fun x => clusterNo vs f x = c

/-- Error systems of the vertices. -/
noncomputable def qefsOf (l : List Nat) : List (QState K 3) := l.filterMap fun x => (h[x]?).bind (·.qef)

/-- Material of a vertex. -/
noncomputable def vmatAt (x : Nat) : Material := ((h[x]?).map (·.material)).getD .Empty

/-- Normal of a vertex. -/
noncomputable def vnormalAt (x : Nat) : Vec3 K := ((h[x]?).map (·.normal)).getD ⟨0, 0, 0⟩

/-- The joint error system of the vertices `l`. -/
noncomputable def jointQef (env : DcEnv K) (q : Qef K 3) (l : List Nat) : Option (Qef K 3) := runOps qef3Rows 30 env.tiny q ((qefsOf h l).map .merge)

/-- State of the merging loop when the vertices `pre` are done. -/
structure MergeInv (env : DcEnv K) (q : Qef K 3) (cnt : Nat) (pre : List Nat) (m : MdcMerge K) : Prop where
  heap : m.heap = mergeH h vs f pre ++ List.replicate cnt MdcVertex.new
  qlen : m.q.length = cnt
  qs : ∀ c < cnt, ∃ qc, m.q[c]? = some qc ∧ jointQef h env q (grp vs f c pre) = some qc
  flen : m.filter.length = cnt
  fs : ∀ c < cnt, m.filter[c]? = some (((grp vs f c pre).map (vmatAt h)).foldl FilterFast.add FilterFast.new)
  alen : m.avg.length = cnt
  avgs : ∀ c < cnt, m.avg[c]? = some (((grp vs f c pre).map (vnormalAt h)).foldl Vec3.add ⟨0, 0, 0⟩)

end

section
variable {h : MdcHeap K} {vs : List Nat} {f : Nat → Nat} {env : DcEnv K} {q : Qef K 3} {cnt : Nat} {m : MdcMerge K}

theorem mergeH_get (pre : List Nat) (a : Nat) : (mergeH h vs f pre)[a]? = (h[a]?).map fun v =>
    if a ∈ pre then { v with surfaceIdx := kBadIndex, parent := some (h.length + clusterNo vs f a) }
    else { v with surfaceIdx := if a ∈ vs then vs.idxOf a else kBadIndex } := by
  unfold mergeH
  rw [List.getElem?_mapIdx]

theorem mergeH_length (pre : List Nat) : (mergeH h vs f pre).length = h.length := by unfold mergeH; rw [List.length_mapIdx]

theorem mergeH_nil : mergeH h vs f [] = setSurf h vs := by
  apply List.ext_getElem?
  intro a
  rw [mergeH_get, setSurf_get]
  simp

theorem merge_init : MergeInv h vs f env q cnt [] ⟨setSurf h vs ++ List.replicate cnt MdcVertex.new, List.replicate cnt q,
    List.replicate cnt FilterFast.new, List.replicate cnt ⟨0, 0, 0⟩⟩ :=
  ⟨by rw [mergeH_nil], by simp, fun c hc => ⟨q, by simp [hc], rfl⟩, by simp, fun c hc => by simp [hc, grp], by simp, fun c hc => by simp [hc, grp]⟩

theorem grp_snoc (c : Nat) (pre : List Nat) (a : Nat) : grp vs f c (pre ++ [a]) = grp vs f c pre ++ if clusterNo vs f a = c then [a] else [] := by
  unfold grp
  rw [List.filter_append]
  congr 1
  by_cases h : clusterNo vs f a = c <;> simp [h]

theorem joint_append (l l' : List Nat) : jointQef h env q (l ++ l') = (jointQef h env q l).bind fun q1 => jointQef h env q1 l' := by
  unfold jointQef runOps qefsOf
  rw [List.filterMap_append, List.map_append, List.foldlM_append]
  rfl

theorem joint_one {a : Nat} {v : MdcVertex K} {st : QState K 3} (hv : h[a]? = some v) (hq : v.qef = some st) :
    jointQef h env q [a] = q.merge qef3Rows env.tiny st := by
  unfold jointQef runOps qefsOf
  simp only [List.filterMap_cons, hv, Option.bind_some, hq, List.filterMap_nil, List.map_cons, List.map_nil, List.foldlM_cons, List.foldlM_nil,
    QefOp.apply, Option.bind_eq_bind]
  cases q.merge qef3Rows env.tiny st <;> rfl

/-- One step: it succeeds exactly if the vertex has an error system and merging it succeeds. -/
theorem merge_step {setIdx : List Nat} (hidx : ∀ x ∈ vs, setIdx[vs.idxOf x]? = some (clusterNo vs f x)) (hcnt : ∀ x ∈ vs, clusterNo vs f x < cnt)
    {pre : List Nat} (hm : MergeInv h vs f env q cnt pre m) {a : Nat} (ha : a ∈ vs) (hap : a ∉ pre) (hal : a < h.length) {v : MdcVertex K} (hv : h[a]? = some v) :
    (∀ m', mdcMergeStep env setIdx h.length m a = some m' → v.qef ≠ none ∧ MergeInv h vs f env q cnt (pre ++ [a]) m') ∧
    (∀ st q1 q2, v.qef = some st → jointQef h env q (grp vs f (clusterNo vs f a) pre) = some q1 → q1.merge qef3Rows env.tiny st = some q2 →
      ∃ m', mdcMergeStep env setIdx h.length m a = some m') := by
  obtain ⟨m1, m2, m3, m4, m5, m6, m7⟩ := hm
  set c := clusterNo vs f a with hc
  have hcc := hcnt a ha
  obtain ⟨qc, hq1, hq2⟩ := m3 c hcc
  have hget : m.heap[a]? = some { v with surfaceIdx := vs.idxOf a } := by
    rw [m1, List.getElem?_append_left (by rw [mergeH_length]; exact hal), mergeH_get, hv]
    simp [hap, ha]
  have hlen : a < m.heap.length := by rw [m1, List.length_append, mergeH_length]; omega
  have hheap : m.heap.set a { v with surfaceIdx := kBadIndex, parent := some (h.length + c) } =
      mergeH h vs f (pre ++ [a]) ++ List.replicate cnt MdcVertex.new := by
    rw [m1, List.set_append_left _ _ (by rw [mergeH_length]; exact hal)]
    congr 1
    apply List.ext_getElem?
    intro b
    rw [List.getElem?_set, mergeH_get, mergeH_get, mergeH_length]
    by_cases hab : a = b
    · subst hab
      rw [if_pos rfl, if_pos hal, hv]
      simp [hc]
    · rw [if_neg hab]
      have : b ≠ a := fun e => hab e.symm
      cases h[b]? with
      | none => rfl
      | some w => simp [this]
  have hstep : mdcMergeStep env setIdx h.length m a = v.qef.bind fun st => (qc.merge qef3Rows env.tiny st).bind fun q' =>
      some ⟨m.heap.set a { v with surfaceIdx := kBadIndex, parent := some (h.length + c) }, m.q.set c q',
        m.filter.set c ((((grp vs f c pre).map (vmatAt h)).foldl FilterFast.add FilterFast.new).add v.material),
        m.avg.set c ((((grp vs f c pre).map (vnormalAt h)).foldl Vec3.add ⟨0, 0, 0⟩).add v.normal)⟩ := by
    unfold mdcMergeStep
    simp only [hget, hidx a ha, ← hc, hq1, m5 c hcc, m7 c hcc, Option.bind_eq_bind, Option.bind_some, DSU.write_lt _ (show c < m.q.length by omega),
      DSU.write_lt _ (show c < m.filter.length by omega), DSU.write_lt _ (show c < m.avg.length by omega), DSU.write_lt _ hlen]
  constructor
  · intro m' hm'
    rw [hstep] at hm'
    simp only [Option.bind_eq_some_iff, Option.some.injEq] at hm'
    obtain ⟨st, hst, q', hq', rfl⟩ := hm'
    refine ⟨by rw [hst]; exact Option.some_ne_none _, hheap, by simp [m2], ?_, by simp [m4], ?_, by simp [m6], ?_⟩
    · intro c' hc'
      dsimp only
      rw [List.getElem?_set, grp_snoc]
      by_cases e : c = c'
      · subst e
        rw [if_pos rfl, if_pos (by omega), if_pos rfl, joint_append, hq2, Option.bind_some, joint_one hv hst]
        exact ⟨q', rfl, hq'⟩
      · rw [if_neg e, if_neg e, List.append_nil]
        exact m3 c' hc'
    · intro c' hc'
      dsimp only
      rw [List.getElem?_set, grp_snoc]
      by_cases e : c = c'
      · subst e
        rw [if_pos rfl, if_pos (by omega), if_pos rfl, List.map_append, List.foldl_append]
        simp [vmatAt, hv]
      · rw [if_neg e, if_neg e, List.append_nil]
        exact m5 c' hc'
    · intro c' hc'
      dsimp only
      rw [List.getElem?_set, grp_snoc]
      by_cases e : c = c'
      · subst e
        rw [if_pos rfl, if_pos (by omega), if_pos rfl, List.map_append, List.foldl_append]
        simp [vnormalAt, hv]
      · rw [if_neg e, if_neg e, List.append_nil]
        exact m7 c' hc'
  · intro st q1 q2 hst h1 h2
    rw [hq2] at h1; cases h1
    rw [hstep, hst, Option.bind_some, h2]
    exact ⟨_, rfl⟩

theorem merge_loop {setIdx : List Nat} (hnd : vs.Nodup) (hidx : ∀ x ∈ vs, setIdx[vs.idxOf x]? = some (clusterNo vs f x))
    (hcnt : ∀ x ∈ vs, clusterNo vs f x < cnt) (hl : ∀ x ∈ vs, x < h.length) :
    (∀ m', vs.foldlM (mdcMergeStep env setIdx h.length) ⟨setSurf h vs ++ List.replicate cnt MdcVertex.new, List.replicate cnt q,
        List.replicate cnt FilterFast.new, List.replicate cnt ⟨0, 0, 0⟩⟩ = some m' →
      (∀ x ∈ vs, ∀ v, h[x]? = some v → v.qef ≠ none) ∧ MergeInv h vs f env q cnt vs m') ∧
    ((∀ x ∈ vs, ∃ v, h[x]? = some v ∧ v.qef ≠ none) → (∀ c < cnt, jointQef h env q (grp vs f c vs) ≠ none) →
      ∃ m', vs.foldlM (mdcMergeStep env setIdx h.length) ⟨setSurf h vs ++ List.replicate cnt MdcVertex.new, List.replicate cnt q,
        List.replicate cnt FilterFast.new, List.replicate cnt ⟨0, 0, 0⟩⟩ = some m') := by
  have key : ∀ post pre, vs = pre ++ post → ∀ m, MergeInv h vs f env q cnt pre m →
      (∀ m', post.foldlM (mdcMergeStep env setIdx h.length) m = some m' →
        (∀ x ∈ post, ∀ v, h[x]? = some v → v.qef ≠ none) ∧ MergeInv h vs f env q cnt vs m') ∧
      ((∀ x ∈ vs, ∃ v, h[x]? = some v ∧ v.qef ≠ none) → (∀ c < cnt, jointQef h env q (grp vs f c vs) ≠ none) →
        ∃ m', post.foldlM (mdcMergeStep env setIdx h.length) m = some m') := by
    intro post
    induction post with
    | nil =>
      intro pre hp m hm
      rw [List.append_nil] at hp
      subst hp
      refine ⟨fun m' hm' => ?_, fun _ _ => ⟨m, rfl⟩⟩
      cases hm'
      exact ⟨by simp, hm⟩
    | cons a post ih =>
      intro pre hp m hm
      have ha : a ∈ vs := by rw [hp]; simp
      have hap : a ∉ pre := by
        intro h1
        rw [hp] at hnd
        exact (List.nodup_append.1 hnd).2.2 a h1 a (by simp) rfl
      have hal := hl a ha
      have hv : h[a]? = some h[a] := List.getElem?_eq_getElem hal
      obtain ⟨s1, s2⟩ := merge_step hidx hcnt hm ha hap hal hv
      have hp' : vs = (pre ++ [a]) ++ post := by rw [hp]; simp
      rw [List.foldlM_cons]
      constructor
      · intro m' hm'
        simp only [Option.bind_eq_bind, Option.bind_eq_some_iff] at hm'
        obtain ⟨m1, e1, e2⟩ := hm'
        obtain ⟨q1, i1⟩ := s1 m1 e1
        obtain ⟨q2, i2⟩ := (ih _ hp' m1 i1).1 m' e2
        refine ⟨?_, i2⟩
        intro x hx v hxv
        rcases List.mem_cons.1 hx with rfl | hx
        · rw [hv] at hxv; cases hxv; exact q1
        · exact q2 x hx v hxv
      · intro hq hj
        obtain ⟨v, hv', hqv⟩ := hq a ha
        rw [hv] at hv'; cases hv'
        obtain ⟨st, hst⟩ := Option.ne_none_iff_exists'.1 hqv
        have hj' := hj _ (hcnt a ha)
        have hg : grp vs f (clusterNo vs f a) vs = grp vs f (clusterNo vs f a) pre ++ [a] ++ grp vs f (clusterNo vs f a) post := by
          have : ∀ P : List Nat, P = (pre ++ [a]) ++ post → grp vs f (clusterNo vs f a) P =
              grp vs f (clusterNo vs f a) pre ++ [a] ++ grp vs f (clusterNo vs f a) post := by
            rintro P rfl
            unfold grp
            rw [List.filter_append, List.filter_append]
            simp
          exact this vs hp'
        rw [hg, joint_append, joint_append] at hj'
        obtain ⟨q0, hj0⟩ := Option.ne_none_iff_exists'.1 hj'
        simp only [Option.bind_eq_some_iff] at hj0
        obtain ⟨q1, ⟨q2, e1, e2⟩, e3⟩ := hj0
        rw [joint_one hv hst] at e2
        obtain ⟨m1, em⟩ := s2 st q2 q1 hst e1 e2
        obtain ⟨-, i1⟩ := s1 m1 em
        obtain ⟨m', e⟩ := (ih _ hp' m1 i1).2 hq hj
        exact ⟨m', by simp only [em, Option.bind_eq_bind, Option.bind_some]; exact e⟩
  exact key vs [] rfl _ merge_init

/-! ### The vertices of the clusters -/

theorem finish_loop {lo : IVec3} {k : Nat} {H : MdcHeap K} {hH : m.heap = H ++ List.replicate cnt MdcVertex.new} {qf : Nat → Qef K 3}
    (hq : ∀ c < cnt, m.q[c]? = some (qf c)) {ff : Nat → FilterFast} (hf : ∀ c < cnt, m.filter[c]? = some (ff c)) {af : Nat → Vec3 K}
    (hav : ∀ c < cnt, m.avg[c]? = some (af c)) :
    (∀ r, (List.range cnt).foldlM (mdcFinishStep env lo k H.length m) m.heap = some r →
      ∃ ws : List (MdcVertex K), r = H ++ ws ∧ ws.length = cnt ∧
        ∀ c (hc : c < ws.length), mdcSolveVertex env lo k (qf c) (ff c) (af c) MdcVertex.new = some ws[c]) ∧
    ((∀ c < cnt, ∃ v, mdcSolveVertex env lo k (qf c) (ff c) (af c) MdcVertex.new = some v) →
      ∃ r, (List.range cnt).foldlM (mdcFinishStep env lo k H.length m) m.heap = some r) := by
  have hstep : ∀ j < cnt, ∀ ws : List (MdcVertex K), ws.length = j →
      mdcFinishStep env lo k H.length m (H ++ ws ++ List.replicate (cnt - j) MdcVertex.new) j =
        (mdcSolveVertex env lo k (qf j) (ff j) (af j) MdcVertex.new).map fun v => H ++ (ws ++ [v]) ++ List.replicate (cnt - (j + 1)) MdcVertex.new := by
    intro j hj ws hw
    have hrep : List.replicate (cnt - j) (MdcVertex.new : MdcVertex K) = MdcVertex.new :: List.replicate (cnt - (j + 1)) MdcVertex.new := by
      rw [show cnt - j = (cnt - (j + 1)) + 1 by omega, List.replicate_succ]
    have hg : (H ++ ws ++ List.replicate (cnt - j) MdcVertex.new)[H.length + j]? = some MdcVertex.new := by
      rw [List.getElem?_append_right (by simp [hw]), hrep]
      simp [hw]
    unfold mdcFinishStep
    simp only [hq j hj, hf j hj, hav j hj, hg, Option.bind_eq_bind, Option.bind_some]
    cases mdcSolveVertex env lo k (qf j) (ff j) (af j) MdcVertex.new with
    | none => rfl
    | some v =>
      rw [Option.bind_some, DSU.write_lt _ (by simp; omega), Option.map_some]
      congr 1
      rw [List.set_append_right _ _ (by simp [hw]), hrep]
      have : H.length + j - (H ++ ws).length = 0 := by simp [hw]
      rw [this]
      simp
  have key : ∀ j ≤ cnt,
      (∀ r, (List.range j).foldlM (mdcFinishStep env lo k H.length m) m.heap = some r →
        ∃ ws : List (MdcVertex K), r = H ++ ws ++ List.replicate (cnt - j) MdcVertex.new ∧ ws.length = j ∧
          ∀ c (hc : c < ws.length), mdcSolveVertex env lo k (qf c) (ff c) (af c) MdcVertex.new = some ws[c]) ∧
      ((∀ c < cnt, ∃ v, mdcSolveVertex env lo k (qf c) (ff c) (af c) MdcVertex.new = some v) →
        ∃ r, (List.range j).foldlM (mdcFinishStep env lo k H.length m) m.heap = some r) := by
    intro j
    induction j with
    | zero =>
      intro _
      refine ⟨fun r hr => ?_, fun _ => ⟨_, rfl⟩⟩
      cases hr
      exact ⟨[], by rw [hH]; simp, rfl, by simp⟩
    | succ j ih =>
      intro hj
      obtain ⟨i1, i2⟩ := ih (by omega)
      rw [List.range_succ, List.foldlM_append]
      constructor
      · intro r hr
        simp only [Option.bind_eq_bind, Option.bind_eq_some_iff, List.foldlM_cons, List.foldlM_nil] at hr
        obtain ⟨r1, e1, r2, e2, e3⟩ := hr
        cases e3
        obtain ⟨ws, rfl, hw, hs⟩ := i1 r1 e1
        rw [hstep j (by omega) ws hw, Option.map_eq_some_iff] at e2
        obtain ⟨v, hv, rfl⟩ := e2
        refine ⟨ws ++ [v], rfl, by simp [hw], ?_⟩
        intro c hc
        rw [List.getElem_append]
        split
        · exact hs c _
        · simp only [List.length_append, List.length_singleton] at hc
          have : c = j := by omega
          subst this
          simp [hv]
      · intro hs
        obtain ⟨r1, e1⟩ := i2 hs
        obtain ⟨ws, rfl, hw, -⟩ := i1 r1 e1
        obtain ⟨v, hv⟩ := hs j (by omega)
        simp only [e1, Option.bind_eq_bind, Option.bind_some, List.foldlM_cons, List.foldlM_nil, hstep j (by omega) ws hw, hv, Option.map_some]
        exact ⟨_, rfl⟩
  obtain ⟨k1, k2⟩ := key cnt (le_refl _)
  refine ⟨fun r hr => ?_, k2⟩
  obtain ⟨ws, h1, h2, h3⟩ := k1 r hr
  exact ⟨ws, by rw [h1]; simp, h2, h3⟩

end
end Isomesh
