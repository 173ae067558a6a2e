import Verif.Model.MdcRebuild
import Verif.Props.MdcOctree
import Verif.Props.MdcDemo

/-! C68: `MDC_Octree` objects can be used repeatedly. -/

namespace Isomesh
open Spec Relation

set_option linter.unusedSectionVars false
variable {K : Type} [Add K] [_root_.Sub K] [Mul K] [Div K] [Neg K] [Zero K] [One K] [OfNat K 2] [OfScientific K] [NatCast K] [IntCast K]
  [Fabs K] [Elem K] [LinearOrder K] [RoundedLaws K]

variable {env : DcEnv K} {g : Grid K} {options : Qef K 3}

/-! ### Specification -/

/-- What can happen to an octree: `build` (which completes), `build` ending with an exception (with whatever it may leave in the
root), `contour`. -/
inductive MdcOp (K : Type) where
  | build (g : Grid K) (solver : Qef K 3)
  | failed (corners : Fin 8 → Material) (mask : Nat) (vs : List (MdcVertex K))
  | contour (ε : K)

/-- The elements of the root's vector are never attached to a parent and carry no set number outside of `clusterCell`. -/
def Loose (v : MdcVertex K) : Prop := v.parent = none ∧ v.surfaceIdx = kBadIndex

/-- The octree after an operation. -/
noncomputable def MdcOctree.step (env : DcEnv K) (o : MdcOctree K) : MdcOp K → Option (MdcOctree K)
  | .build g solver => (o.rebuild env g solver).map (·.2)
  | .failed corners mask vs => some (o.failed corners mask vs)
  | .contour ε => (o.contour ε).map (·.2)

/-- The octree after a history. -/
noncomputable def MdcOctree.run (env : DcEnv K) (o : MdcOctree K) (ops : List (MdcOp K)) : Option (MdcOctree K) := ops.foldlM (fun o op => o.step env op) o

/-- An exception leaves only loose vertices in the root. -/
def MdcOp.Ok : MdcOp K → Prop
  | .failed _ _ vs => ∀ v ∈ vs, Loose v
  | _ => True

/-! ### Proof -/

/-- The vertices of the root are loose. -/
def RootLoose (o : MdcOctree K) : Prop := ∀ a ∈ vertsOf o.root, ∃ v, o.heap[a]? = some v ∧ Loose v

theorem resizeVec_length (old : List (MdcVertex K)) (n : Nat) : (resizeVec old n).length = n := by
  unfold resizeVec
  rw [List.length_append, List.length_take, List.length_replicate]
  omega

theorem resizeVec_loose {old : List (MdcVertex K)} (h : ∀ v ∈ old, Loose v) (n : Nat) : ∀ v ∈ resizeVec old n, Loose v := by
  intro v hv
  unfold resizeVec at hv
  rcases List.mem_append.1 hv with hv | hv
  · exact h v (List.mem_of_mem_take hv)
  · rw [(List.mem_replicate.1 hv).2]; exact ⟨rfl, rfl⟩

/-- Both computations fail, or both succeed with related results. -/
def Both {A : Type} (R : A → A → Prop) (x y : Option A) : Prop := (x = none ∧ y = none) ∨ ∃ a b, x = some a ∧ y = some b ∧ R a b

theorem both_bind {A B : Type} {R : A → A → Prop} {S : B → B → Prop} {x y : Option A} {f f' : A → Option B} (h : Both R x y)
    (hf : ∀ a b, R a b → Both S (f a) (f' b)) : Both S (x.bind f) (y.bind f') := by
  rcases h with ⟨rfl, rfl⟩ | ⟨a, b, rfl, rfl, hr⟩
  · exact Or.inl ⟨rfl, rfl⟩
  · exact hf a b hr

theorem both_eq {A B : Type} {S : B → B → Prop} (x : Option A) {f f' : A → Option B} (hf : ∀ a, x = some a → Both S (f a) (f' a)) :
    Both S (x.bind f) (x.bind f') := by
  cases hx : x with
  | none => exact Or.inl ⟨rfl, rfl⟩
  | some a => exact hf a hx

theorem both_foldlM {A B : Type} {R : A → A → Prop} {f f' : A → B → Option A} : ∀ (l : List B), (∀ x ∈ l, ∀ a b, R a b → Both R (f a x) (f' b x)) →
    ∀ a b, R a b → Both R (l.foldlM f a) (l.foldlM f' b)
  | [], _, a, b, h => Or.inr ⟨a, b, rfl, rfl, h⟩
  | x :: l, hf, a, b, h => by
    rw [List.foldlM_cons, List.foldlM_cons]
    exact both_bind (hf x (by simp) a b h) (fun a b h => both_foldlM l (fun y hy => hf y (by simp [hy])) a b h)

theorem solve_map (lo : IVec3) (k : Nat) (q : Qef K 3) (f : FilterFast) (avg : Vec3 K) : ∃ d : Option (Vec3 K × Vec3 K × Material × K × QState K 3), ∀ v,
    mdcSolveVertex env lo k q f avg v = d.map fun d => { v with position := d.1, normal := d.2.1, material := d.2.2.1, error := d.2.2.2.1, qef := some d.2.2.2.2 } := by
  refine ⟨(mdcSolveVertex env lo k q f avg MdcVertex.new).bind fun w => w.qef.map fun s => (w.position, w.normal, w.material, w.error, s), ?_⟩
  intro v
  unfold mdcSolveVertex
  cases dcSolveBox env q lo k with
  | none => rfl
  | some qv =>
    simp only [Option.bind_eq_bind, Option.bind_some]
    cases qv.1.eval qef3Rows qv.2 with
    | none => rfl
    | some e =>
      simp only [Option.bind_some]
      cases qv.1.state qef3Rows 30 env.tiny with
      | none => rfl
      | some qs => rfl

/-- The solved vertices agree up to the marks. -/
theorem solve_both {v v' : MdcVertex K} (h : Loose v) (h' : Loose v') (lo : IVec3) (k : Nat) (q : Qef K 3) (f : FilterFast) (avg : Vec3 K) :
    Both (fun w w' => w'.strip = w.strip ∧ Loose w ∧ Loose w') (mdcSolveVertex env lo k q f avg v) (mdcSolveVertex env lo k q f avg v') := by
  obtain ⟨d, hd⟩ := solve_map (env := env) lo k q f avg
  rw [hd, hd]
  cases d with
  | none => exact Or.inl ⟨rfl, rfl⟩
  | some d =>
    refine Or.inr ⟨_, _, rfl, rfl, ?_, h, h'⟩
    obtain ⟨h1, h2⟩ := h
    obtain ⟨h3, h4⟩ := h'
    simp only [MdcVertex.strip, h1, h2, h3, h4]

/-- While the vertices are solved: equal up to marks below `n`, loose from `n` on. -/
structure Part (n : Nat) (base : Nat) (h h' : MdcHeap K) : Prop where
  len : h'.length = h.length
  done : ∀ a, a < n → (h'[a]?).map MdcVertex.strip = (h[a]?).map MdcVertex.strip
  loose : ∀ a v, base ≤ a → h[a]? = some v → Loose v
  loose' : ∀ a v, base ≤ a → h'[a]? = some v → Loose v

theorem write_get {α : Type} {l l' : List α} {i : Nat} {v : α} (h : write l i v = some l') (j : Nat) : l'[j]? = if j = i then some v else l[j]? := by
  by_cases hi : i < l.length
  · rw [write_of_lt hi v] at h
    cases h
    rw [List.getElem?_set]
    by_cases hj : j = i
    · subst hj; simp [hi]
    · rw [if_neg (Ne.symm hj), if_neg hj]
  · unfold write at h; simp [hi] at h

theorem write_isSome {α : Type} {l : List α} {i : Nat} (v : α) (hi : i < l.length) : ∃ l', write l i v = some l' := ⟨_, write_of_lt hi v⟩

theorem write_none {α : Type} {l : List α} {i : Nat} (v : α) (hi : ¬ i < l.length) : write l i v = none := by
  unfold write; simp [hi]

theorem write_length {α : Type} {l l' : List α} {i : Nat} {v : α} (h : write l i v = some l') : l'.length = l.length := by
  by_cases hi : i < l.length
  · rw [write_of_lt hi v] at h
    cases h
    simp
  · rw [write_none v hi] at h; cases h

theorem finish_both (lo : IVec3) (k base : Nat) (m m' : MdcMerge K) (hq : m'.q = m.q) (hf : m'.filter = m.filter) (ha : m'.avg = m.avg) {h h' : MdcHeap K} {i : Nat}
    (hp : Part (base + i) base h h') :
    Both (Part (base + i + 1) base) (mdcFinishStep env lo k base m h i) (mdcFinishStep env lo k base m' h' i) := by
  unfold mdcFinishStep
  rw [hq, hf, ha]
  simp only [Option.bind_eq_bind]
  refine both_eq _ fun q _ => both_eq _ fun f _ => both_eq _ fun n _ => ?_
  have hv : Both (fun v v' => Loose v ∧ Loose v') h[base + i]? h'[base + i]? := by
    by_cases hl : base + i < h.length
    · have hl' : base + i < h'.length := by rw [hp.len]; exact hl
      exact Or.inr ⟨_, _, List.getElem?_eq_getElem hl, List.getElem?_eq_getElem hl', hp.loose _ _ (by omega) (List.getElem?_eq_getElem hl),
        hp.loose' _ _ (by omega) (List.getElem?_eq_getElem hl')⟩
    · exact Or.inl ⟨List.getElem?_eq_none (by omega), List.getElem?_eq_none (by rw [hp.len]; omega)⟩
  refine both_bind hv fun v v' hl => both_bind (solve_both hl.1 hl.2 lo k q f n) fun w w' hw => ?_
  by_cases hlt : base + i < h.length
  · obtain ⟨l, e⟩ := write_isSome w hlt
    obtain ⟨l', e'⟩ := write_isSome w' (show base + i < h'.length by rw [hp.len]; exact hlt)
    refine Or.inr ⟨l, l', e, e', ?_, ?_, ?_, ?_⟩
    · rw [write_length e, write_length e', hp.len]
    · intro a ha
      rw [write_get e, write_get e']
      split_ifs with h1
      · simp [hw.1]
      · exact hp.done a (by omega)
    · intro a x hx hax
      rw [write_get e] at hax
      split_ifs at hax with h1
      · cases hax; exact hw.2.1
      · exact hp.loose a x hx hax
    · intro a x hx hax
      rw [write_get e'] at hax
      split_ifs at hax with h1
      · cases hax; exact hw.2.2
      · exact hp.loose' a x hx hax
  · exact Or.inl ⟨write_none _ hlt, write_none _ (by rw [hp.len]; exact hlt)⟩

/-- While the children are merged. -/
structure MergeRel (base : Nat) (m m' : MdcMerge K) : Prop where
  q : m'.q = m.q
  filter : m'.filter = m.filter
  avg : m'.avg = m.avg
  part : Part base base m.heap m'.heap
  below : ∀ a, a < base → m'.heap[a]? = m.heap[a]?

theorem merge_both (setIdx : List Nat) {base : Nat} {m m' : MdcMerge K} (h : MergeRel base m m') {a : Nat} (ha : a < base) :
    Both (MergeRel base) (mdcMergeStep env setIdx base m a) (mdcMergeStep env setIdx base m' a) := by
  unfold mdcMergeStep
  rw [h.q, h.filter, h.avg, h.below a ha]
  simp only [Option.bind_eq_bind]
  refine both_eq _ fun v hv => both_eq _ fun idx _ => both_eq _ fun q _ => both_eq _ fun st _ => both_eq _ fun q1 _ => both_eq _ fun qs _ => both_eq _ fun n _ =>
    both_eq _ fun avg _ => both_eq _ fun f _ => both_eq _ fun fs _ => ?_
  have hlt : a < m.heap.length := (List.getElem?_eq_some_iff.1 hv).1
  obtain ⟨l, e⟩ := write_isSome { v with surfaceIdx := kBadIndex, parent := some (base + idx) } hlt
  obtain ⟨l', e'⟩ := write_isSome { v with surfaceIdx := kBadIndex, parent := some (base + idx) } (show a < m'.heap.length by rw [h.part.len]; exact hlt)
  rw [e, e']
  refine Or.inr ⟨_, _, rfl, rfl, rfl, rfl, rfl, ⟨?_, ?_, ?_, ?_⟩, ?_⟩
  · rw [write_length e, write_length e', h.part.len]
  · intro b hb
    rw [write_get e, write_get e']
    split_ifs
    · rfl
    · exact h.part.done b hb
  · intro b x hx hbx
    rw [write_get e, if_neg (by omega)] at hbx
    exact h.part.loose b x hx hbx
  · intro b x hx hbx
    rw [write_get e', if_neg (by omega)] at hbx
    exact h.part.loose' b x hx hbx
  · intro b hb
    rw [write_get e, write_get e']
    split_ifs
    · rfl
    · exact h.below b hb

/-- The vertices collected lie in the heap, whose size does not change. -/
def Inside (n : Nat) (s : MdcCluster K) : Prop := s.heap.length = n ∧ ∀ a ∈ s.vertices, a < n

theorem touch_inside {n : Nat} {s s' : MdcCluster K} {v : Nat} (h : Inside n s) (e : mdcTouch s v = some s') : Inside n s' := by
  unfold mdcTouch at e
  simp only [Option.bind_eq_bind] at e
  obtain ⟨x, hx, e⟩ := Option.bind_eq_some_iff.1 e
  split_ifs at e with hb
  · obtain ⟨heap, hh, e⟩ := Option.bind_eq_some_iff.1 e
    cases e
    refine ⟨by simp only; rw [write_length hh]; exact h.1, ?_⟩
    intro a ha
    rcases List.mem_append.1 ha with ha | ha
    · exact h.2 a ha
    · rw [List.mem_singleton.1 ha, ← h.1]; exact (List.getElem?_eq_some_iff.1 hx).1
  · cases e; exact h

theorem loop_inside {n : Nat} {D : Axis} {l : Fin 4 → MdcLeaf} : ∀ (is : List (Fin 4)) (s s' : MdcCluster K) (r : Option (List Nat)), Inside n s →
    mdcClusterLoop D l is s = some (s', r) → Inside n s'
  | [], s, s', r, h, e => by
    unfold mdcClusterLoop at e
    cases e; exact h
  | i :: is, s, s', r, h, e => by
    unfold mdcClusterLoop at e
    simp only [Option.bind_eq_bind] at e
    obtain ⟨idx, -, e⟩ := Option.bind_eq_some_iff.1 e
    split_ifs at e with hb
    · cases e; exact h
    · obtain ⟨a, -, e⟩ := Option.bind_eq_some_iff.1 e
      obtain ⟨v, -, e⟩ := Option.bind_eq_some_iff.1 e
      obtain ⟨s1, h1, e⟩ := Option.bind_eq_some_iff.1 e
      obtain ⟨⟨s2, r2⟩, h2, e⟩ := Option.bind_eq_some_iff.1 e
      cases e
      exact loop_inside is s1 s2 r2 (touch_inside h h1) h2

theorem call_inside {n : Nat} {s s' : MdcCluster K} {call : Axis × (Fin 4 → MdcNode)} (h : Inside n s) (e : mdcClusterCall s call = some s') : Inside n s' := by
  unfold mdcClusterCall mdcClusterLeaves at e
  simp only [Option.bind_eq_bind] at e
  obtain ⟨l0, -, e⟩ := Option.bind_eq_some_iff.1 e
  obtain ⟨l1, -, e⟩ := Option.bind_eq_some_iff.1 e
  obtain ⟨l2, -, e⟩ := Option.bind_eq_some_iff.1 e
  obtain ⟨l3, -, e⟩ := Option.bind_eq_some_iff.1 e
  obtain ⟨⟨s1, r⟩, h1, e⟩ := Option.bind_eq_some_iff.1 e
  have hi := loop_inside _ _ _ _ h h1
  split at e
  · obtain ⟨_, -, e⟩ := Option.bind_eq_some_iff.1 e
    obtain ⟨_, -, e⟩ := Option.bind_eq_some_iff.1 e
    obtain ⟨_, -, e⟩ := Option.bind_eq_some_iff.1 e
    obtain ⟨_, -, e⟩ := Option.bind_eq_some_iff.1 e
    obtain ⟨_, -, e⟩ := Option.bind_eq_some_iff.1 e
    obtain ⟨_, -, e⟩ := Option.bind_eq_some_iff.1 e
    obtain ⟨_, -, e⟩ := Option.bind_eq_some_iff.1 e
    cases e
    exact hi
  · cases e; exact hi

theorem calls_inside {n : Nat} : ∀ (l : List (Axis × (Fin 4 → MdcNode))) (s s' : MdcCluster K), Inside n s → l.foldlM mdcClusterCall s = some s' → Inside n s'
  | [], s, s', h, e => by cases e; exact h
  | c :: l, s, s', h, e => by
    rw [List.foldlM_cons, Option.bind_eq_bind] at e
    obtain ⟨s1, h1, e⟩ := Option.bind_eq_some_iff.1 e
    exact calls_inside l s1 s' (call_inside h h1) e

theorem merge_length {setIdx : List Nat} {base : Nat} {m m1 : MdcMerge K} {a : Nat} (e : mdcMergeStep env setIdx base m a = some m1) :
    m1.heap.length = m.heap.length := by
  unfold mdcMergeStep at e
  simp only [Option.bind_eq_bind] at e
  obtain ⟨_, -, e⟩ := Option.bind_eq_some_iff.1 e
  obtain ⟨_, -, e⟩ := Option.bind_eq_some_iff.1 e
  obtain ⟨_, -, e⟩ := Option.bind_eq_some_iff.1 e
  obtain ⟨_, -, e⟩ := Option.bind_eq_some_iff.1 e
  obtain ⟨_, -, e⟩ := Option.bind_eq_some_iff.1 e
  obtain ⟨_, -, e⟩ := Option.bind_eq_some_iff.1 e
  obtain ⟨_, -, e⟩ := Option.bind_eq_some_iff.1 e
  obtain ⟨_, -, e⟩ := Option.bind_eq_some_iff.1 e
  obtain ⟨_, -, e⟩ := Option.bind_eq_some_iff.1 e
  obtain ⟨_, -, e⟩ := Option.bind_eq_some_iff.1 e
  obtain ⟨_, hw, e⟩ := Option.bind_eq_some_iff.1 e
  cases e
  exact write_length hw

theorem finish_length {lo : IVec3} {k base : Nat} {m : MdcMerge K} {h h1 : MdcHeap K} {i : Nat} (e : mdcFinishStep env lo k base m h i = some h1) :
    h1.length = h.length := by
  unfold mdcFinishStep at e
  simp only [Option.bind_eq_bind] at e
  obtain ⟨_, -, e⟩ := Option.bind_eq_some_iff.1 e
  obtain ⟨_, -, e⟩ := Option.bind_eq_some_iff.1 e
  obtain ⟨_, -, e⟩ := Option.bind_eq_some_iff.1 e
  obtain ⟨_, -, e⟩ := Option.bind_eq_some_iff.1 e
  obtain ⟨_, -, e⟩ := Option.bind_eq_some_iff.1 e
  exact write_length e

/-- Results of the two builds: the same solver and tree; heaps equal up to the marks; loose vertices in the root. -/
def Agree (r r' : (Qef K 3 × MdcHeap K) × List Nat) : Prop :=
  r'.1.1 = r.1.1 ∧ r'.2 = r.2 ∧ Same r.1.2 r'.1.2 ∧ ∀ a ∈ r'.2, ∃ v, r'.1.2[a]? = some v ∧ Loose v

theorem clusterNode_both {old : List (MdcVertex K)} (hold : ∀ v ∈ old, Loose v) (ch : Fin 8 → MdcNode) (lo : IVec3) (k : Nat) (q : Qef K 3) (heap : MdcHeap K) :
    Both Agree (mdcClusterNode env ch lo k q heap) (mdcClusterNodeKeep env old ch lo k q heap) := by
  unfold mdcClusterNode mdcClusterNodeKeep
  simp only [Option.bind_eq_bind]
  refine both_eq _ fun s hs => both_eq _ fun r _ => ?_
  have hin : Inside heap.length s := calls_inside _ _ s ⟨rfl, by simp⟩ hs
  have hlen : s.heap.length = heap.length := hin.1
  have nth : ∀ (L : List (MdcVertex K)), (∀ v ∈ L, Loose v) → ∀ a v, s.heap.length ≤ a → (s.heap ++ L)[a]? = some v → Loose v := by
    intro L hL a v ha he
    rw [List.getElem?_append_right ha] at he
    exact hL v (List.mem_of_getElem? he)
  have hm : Both (MergeRel s.heap.length)
      (s.vertices.foldlM (mdcMergeStep env r.setIdx s.heap.length) ⟨s.heap ++ List.replicate r.cnt MdcVertex.new, List.replicate r.cnt q.reset,
        List.replicate r.cnt FilterFast.new, List.replicate r.cnt ⟨0, 0, 0⟩⟩)
      (s.vertices.foldlM (mdcMergeStep env r.setIdx s.heap.length) ⟨s.heap ++ resizeVec old r.cnt, List.replicate r.cnt q.reset,
        List.replicate r.cnt FilterFast.new, List.replicate r.cnt ⟨0, 0, 0⟩⟩) := by
    have step : ∀ a ∈ s.vertices, ∀ m m', MergeRel s.heap.length m m' →
        Both (MergeRel s.heap.length) (mdcMergeStep env r.setIdx s.heap.length m a) (mdcMergeStep env r.setIdx s.heap.length m' a) :=
      fun a ha m m' h => merge_both _ h (by rw [hlen]; exact hin.2 a ha)
    refine both_foldlM s.vertices step _ _ ⟨rfl, rfl, rfl, ⟨?_, ?_, ?_, ?_⟩, ?_⟩
    · simp [resizeVec_length]
    · intro a ha
      simp only
      rw [List.getElem?_append_left ha, List.getElem?_append_left ha]
    · exact nth _ (fun v hv => by rw [(List.mem_replicate.1 hv).2]; exact ⟨rfl, rfl⟩)
    · exact nth _ (resizeVec_loose hold _)
    · intro a ha
      simp only
      rw [List.getElem?_append_left ha, List.getElem?_append_left ha]
  -- the last loop
  have hlenm : ∀ (l : List Nat) (m m1 : MdcMerge K), l.foldlM (mdcMergeStep env r.setIdx s.heap.length) m = some m1 → m1.heap.length = m.heap.length := by
    intro l
    induction l with
    | nil => intro m m1 e; cases e; rfl
    | cons a l ih =>
      intro m m1 e
      rw [List.foldlM_cons, Option.bind_eq_bind] at e
      obtain ⟨m2, h2, e⟩ := Option.bind_eq_some_iff.1 e
      rw [ih m2 m1 e]
      exact merge_length h2
  rcases hm with ⟨e1, e2⟩ | ⟨m, m', e1, e2, hr⟩
  · rw [e1, e2]; exact Or.inl ⟨rfl, rfl⟩
  · rw [e1, e2]
    simp only [Option.bind_some]
    have hl2 : m.heap.length = s.heap.length + r.cnt := by rw [hlenm _ _ _ e1]; simp
    have fin : ∀ n, n ≤ r.cnt → Both (Part (s.heap.length + n) s.heap.length) ((List.range n).foldlM (mdcFinishStep env lo k s.heap.length m) m.heap)
        ((List.range n).foldlM (mdcFinishStep env lo k s.heap.length m') m'.heap) := by
      intro n hn
      induction n with
      | zero => exact Or.inr ⟨_, _, rfl, rfl, hr.part⟩
      | succ n ih =>
        rw [List.range_succ, List.foldlM_append, List.foldlM_append]
        refine both_bind (ih (by omega)) fun h h' hp => ?_
        have := finish_both (env := env) lo k s.heap.length m m' hr.q hr.filter hr.avg hp
        rw [show s.heap.length + (n + 1) = s.heap.length + n + 1 by omega]
        simpa using this
    have hfl : ∀ n, ∀ h, (List.range n).foldlM (mdcFinishStep env lo k s.heap.length m) m.heap = some h → h.length = m.heap.length := by
      intro n
      induction n with
      | zero => intro h e; cases e; rfl
      | succ n ih =>
        intro h e
        rw [List.range_succ, List.foldlM_append, Option.bind_eq_bind] at e
        obtain ⟨h1, e1, e⟩ := Option.bind_eq_some_iff.1 e
        rw [← ih h1 e1]
        simp only [List.foldlM_cons, List.foldlM_nil, Option.bind_eq_bind] at e
        obtain ⟨h2, e2, e⟩ := Option.bind_eq_some_iff.1 e
        cases e
        exact finish_length e2
    rcases fin r.cnt (le_refl _) with ⟨a1, a2⟩ | ⟨h, h', a1, a2, hp⟩
    · rw [a1, a2]; exact Or.inl ⟨rfl, rfl⟩
    · rw [a1, a2]
      refine Or.inr ⟨_, _, rfl, rfl, rfl, rfl, ?_, ?_⟩
      · have hl := hfl _ _ a1
        intro a
        by_cases ha : a < s.heap.length + r.cnt
        · exact hp.done a ha
        · simp only
          rw [List.getElem?_eq_none (show h'.length ≤ a by rw [hp.len]; omega), List.getElem?_eq_none (show h.length ≤ a by omega)]
      · intro a ha
        rw [List.mem_range'_1] at ha
        have hl := hfl _ _ a1
        have hlt : a < h'.length := by rw [hp.len]; omega
        exact ⟨_, List.getElem?_eq_getElem hlt, hp.loose' a _ ha.1 (List.getElem?_eq_getElem hlt)⟩

theorem both_mapM {B C : Type} {R : C → C → Prop} {f f' : B → Option C} : ∀ (l : List B), (∀ x ∈ l, Both R (f x) (f' x)) →
    Both (List.Forall₂ R) (l.mapM f) (l.mapM f')
  | [], _ => Or.inr ⟨[], [], rfl, rfl, .nil⟩
  | x :: l, h => by
    rw [List.mapM_cons, List.mapM_cons]
    simp only [Option.bind_eq_bind, Option.pure_def]
    refine both_bind (h x (by simp)) fun a b hab => both_bind (both_mapM l fun y hy => h y (by simp [hy])) fun as bs habs => ?_
    exact Or.inr ⟨_, _, rfl, rfl, .cons hab habs⟩

/-- Trees built: same tree, solver, and heaps up to the marks; the root's vertices are loose. -/
def AgreeT (r r' : (Qef K 3 × MdcHeap K) × MdcNode) : Prop :=
  r'.1.1 = r.1.1 ∧ r'.2 = r.2 ∧ Same r.1.2 r'.1.2 ∧ ∀ a ∈ vertsOf r'.2, ∃ v, r'.1.2[a]? = some v ∧ Loose v

theorem buildLeaf_both {old : List (MdcVertex K)} (hold : ∀ v ∈ old, Loose v) (depth : Nat) (lo : IVec3) (s : Qef K 3 × MdcHeap K) :
    Both AgreeT (mdcBuildLeaf env g depth lo s) (mdcBuildLeafKeep env g old depth lo s) := by
  unfold mdcBuildLeaf mdcBuildLeafKeep
  simp only [Option.bind_eq_bind]
  refine both_eq _ fun idx _ => both_eq _ fun ms _ => both_eq _ fun st _ => ?_
  have hm : Both (List.Forall₂ fun w w' => w'.strip = w.strip ∧ Loose w ∧ Loose w')
      ((List.range st.cnt).mapM fun i => if h : i < 4 then mdcSolveVertex env lo 0 (st.q ⟨i, h⟩) (st.filter ⟨i, h⟩) (st.avg ⟨i, h⟩) MdcVertex.new else none)
      ((List.range st.cnt).mapM fun i => if h : i < 4 then ((resizeVec old st.cnt)[i]?).bind (mdcSolveVertex env lo 0 (st.q ⟨i, h⟩) (st.filter ⟨i, h⟩) (st.avg ⟨i, h⟩)) else none) := by
    refine both_mapM _ fun i hi => ?_
    by_cases h : i < 4
    · rw [dif_pos h, dif_pos h]
      have hlt : i < (resizeVec old st.cnt).length := by rw [resizeVec_length]; exact List.mem_range.1 hi
      rw [List.getElem?_eq_getElem hlt, Option.bind_some]
      exact solve_both ⟨rfl, rfl⟩ (resizeVec_loose hold _ _ (List.getElem_mem hlt)) lo 0 _ _ _
    · rw [dif_neg h, dif_neg h]; exact Or.inl ⟨rfl, rfl⟩
  have hlen : ∀ (f : Nat → Option (MdcVertex K)) (l : List Nat) vs, l.mapM f = some vs → vs.length = l.length := by
    intro f l
    induction l with
    | nil => intro vs e; cases e; rfl
    | cons x l ih =>
      intro vs e
      rw [List.mapM_cons] at e
      simp only [Option.bind_eq_bind, Option.pure_def] at e
      obtain ⟨a, -, e⟩ := Option.bind_eq_some_iff.1 e
      obtain ⟨as, h2, e⟩ := Option.bind_eq_some_iff.1 e
      cases e
      simp [ih as h2]
  rcases hm with ⟨a1, a2⟩ | ⟨vs, vs', a1, a2, hr⟩
  · rw [a1, a2]; exact Or.inl ⟨rfl, rfl⟩
  · rw [a1, a2]
    have l2 : vs'.length = st.cnt := by rw [hlen _ _ _ a2, List.length_range]
    refine Or.inr ⟨_, _, rfl, rfl, rfl, rfl, ?_, ?_⟩
    · intro a
      simp only
      by_cases ha : a < s.2.length
      · rw [List.getElem?_append_left ha, List.getElem?_append_left ha]
      · rw [List.getElem?_append_right (by omega), List.getElem?_append_right (by omega)]
        have hl := hr.length_eq
        by_cases hb : a - s.2.length < vs.length
        · rw [List.getElem?_eq_getElem hb, List.getElem?_eq_getElem (by omega : a - s.2.length < vs'.length)]
          have := (List.forall₂_iff_get.1 hr).2 (a - s.2.length) hb (by omega)
          simp only [List.get_eq_getElem] at this
          simp [this.1]
        · rw [List.getElem?_eq_none (by omega), List.getElem?_eq_none (by omega)]
    · intro a ha
      simp only [vertsOf, List.mem_range'_1] at ha
      have hb : a - s.2.length < vs'.length := by omega
      refine ⟨vs'[a - s.2.length], ?_, ?_⟩
      · simp only
        rw [List.getElem?_append_right ha.1, List.getElem?_eq_getElem hb]
      · have := (List.forall₂_iff_get.1 hr).2 (a - s.2.length) (by have := hr.length_eq; omega) hb
        simp only [List.get_eq_getElem] at this
        exact this.2.2

/-- Octrees that `contour` cannot distinguish. -/
structure Alike (o o' : MdcOctree K) : Prop where
  level : o'.level = o.level
  pos : o'.globalPos = o.globalPos
  scale : o'.globalScale = o.globalScale
  root : o'.root = o.root
  heap : Same o.heap o'.heap

theorem kept_loose {o : MdcOctree K} (h : RootLoose o) : ∃ old, o.kept = some old ∧ ∀ v ∈ old, Loose v := by
  unfold MdcOctree.kept
  unfold RootLoose at h
  generalize vertsOf o.root = l at h
  induction l with
  | nil => exact ⟨[], rfl, by simp⟩
  | cons a l ih =>
    obtain ⟨v, hv, hl⟩ := h a (by simp)
    obtain ⟨old, e, ho⟩ := ih fun b hb => h b (by simp [hb])
    refine ⟨v :: old, ?_, ?_⟩
    · rw [List.mapM_cons, hv, e]; rfl
    · intro w hw
      rcases List.mem_cons.1 hw with rfl | hw
      · exact hl
      · exact ho w hw

theorem rebuild_both {o : MdcOctree K} (h : RootLoose o) (g : Grid K) (solver : Qef K 3) :
    Both (fun r r' => r'.1 = r.1 ∧ Alike r.2 r'.2 ∧ RootLoose r'.2) (o.build env g solver) (o.rebuild env g solver) := by
  obtain ⟨old, hk, hold⟩ := kept_loose h
  unfold MdcOctree.build MdcOctree.rebuild
  rw [hk]
  simp only
  cases hlev : o.level with
  | zero =>
    simp only [mdcBuildNode, mdcBuildRoot]
    rcases buildLeaf_both (env := env) (g := g) hold 0 (rootCorner 0) (solver, []) with ⟨a1, a2⟩ | ⟨⟨⟨q, hp⟩, n⟩, ⟨⟨q', hp'⟩, n'⟩, a1, a2, e1, e2, e3, e4⟩
    · rw [a1, a2]; exact Or.inl ⟨rfl, rfl⟩
    · rw [a1, a2]
      simp only at e1 e2 e3 e4
      subst e1 e2
      have hn : ∃ l, n' = .leaf l := by
        unfold mdcBuildLeaf at a1
        simp only [Option.bind_eq_bind] at a1
        obtain ⟨_, -, a1⟩ := Option.bind_eq_some_iff.1 a1
        obtain ⟨_, -, a1⟩ := Option.bind_eq_some_iff.1 a1
        obtain ⟨_, -, a1⟩ := Option.bind_eq_some_iff.1 a1
        obtain ⟨_, -, a1⟩ := Option.bind_eq_some_iff.1 a1
        cases a1
        exact ⟨_, rfl⟩
      obtain ⟨l, rfl⟩ := hn
      simp only [mdcClusterCell, mdcClusterRoot]
      exact Or.inr ⟨_, _, rfl, rfl, rfl, ⟨rfl, rfl, rfl, rfl, e3⟩, e4⟩
  | succ k =>
    simp only [mdcBuildRoot]
    cases hb : mdcBuildNode env g (k + 1) 0 (rootCorner (k + 1)) (solver, []) with
    | none => exact Or.inl ⟨rfl, rfl⟩
    | some r =>
      obtain ⟨s, root⟩ := r
      simp only
      cases root with
      | leaf l =>
        exfalso
        unfold mdcBuildNode at hb
        split at hb
        · cases hb
        · cases hb
      | inner d ch =>
        simp only [mdcClusterCell, mdcClusterRoot]
        cases ht : threadM 8 (fun i s => mdcClusterCell env (ch i) (childCorner (rootCorner (k + 1)) (k + 1 - 1) i) (k + 1 - 1) s) s with
        | none => exact Or.inl ⟨rfl, rfl⟩
        | some r =>
          obtain ⟨s1, ch1⟩ := r
          simp only
          rcases clusterNode_both (env := env) hold ch1 (rootCorner (k + 1)) (k + 1) s1.1 s1.2 with ⟨a1, a2⟩ | ⟨⟨⟨q, hp⟩, n⟩, ⟨⟨q', hp'⟩, n'⟩, a1, a2, e1, e2, e3, e4⟩
          · rw [a1, a2]; exact Or.inl ⟨rfl, rfl⟩
          · rw [a1, a2]
            simp only at e1 e2 e3 e4
            subst e1 e2
            exact Or.inr ⟨_, _, rfl, rfl, rfl, ⟨rfl, rfl, rfl, rfl, e3⟩, e4⟩

/-! ### `contour` only changes the marks -/

theorem write_same {h h' : MdcHeap K} {a : Nat} {v w : MdcVertex K} (hv : h[a]? = some v) (hw : w.strip = v.strip) (e : write h a w = some h') : Same h h' := by
  intro b
  rw [write_get e]
  split_ifs with hb
  · subst hb; rw [hv]; simp [hw]
  · rfl

theorem addVertex_same {ε : K} {isLeaf : Bool} {s s' : MdcHeap K × Mesh K} {a : Nat} (e : mdcAddVertex ε isLeaf s a = some s') : Same s.1 s'.1 := by
  unfold mdcAddVertex at e
  simp only [Option.bind_eq_bind] at e
  obtain ⟨v, hv, e⟩ := Option.bind_eq_some_iff.1 e
  generalize (if isLeaf = true then true else decide (v.error ≤ ε)) = c at e
  obtain ⟨heap, hh, e⟩ := Option.bind_eq_some_iff.1 e
  obtain ⟨hid, -, e⟩ := Option.bind_eq_some_iff.1 e
  have h1 : Same s.1 heap := write_same hv (by rfl) hh
  have hg := write_get hh a
  rw [if_pos rfl] at hg
  split_ifs at e with hc
  · obtain ⟨r, -, e⟩ := Option.bind_eq_some_iff.1 e
    obtain ⟨heap2, h2, e⟩ := Option.bind_eq_some_iff.1 e
    cases e
    exact same_trans h1 (write_same hg (by rfl) h2)
  · obtain ⟨heap2, h2, e⟩ := Option.bind_eq_some_iff.1 e
    cases e
    exact same_trans h1 (write_same hg (by rfl) h2)

theorem foldlM_same {B : Type} {f : MdcHeap K × Mesh K → B → Option (MdcHeap K × Mesh K)} : ∀ (l : List B), (∀ x ∈ l, ∀ s s', f s x = some s' → Same s.1 s'.1) →
    ∀ s s', l.foldlM f s = some s' → Same s.1 s'.1
  | [], _, s, s', e => by cases e; exact same_refl _
  | x :: l, hf, s, s', e => by
    rw [List.foldlM_cons, Option.bind_eq_bind] at e
    obtain ⟨s1, h1, e⟩ := Option.bind_eq_some_iff.1 e
    exact same_trans (hf x (by simp) s s1 h1) (foldlM_same l (fun y hy => hf y (by simp [hy])) s1 s' e)

theorem addVertices_same {ε : K} : ∀ (t : MdcNode) (s s' : MdcHeap K × Mesh K), mdcAddVertices ε t s = some s' → Same s.1 s'.1
  | .leaf l, s, s', e => by
    unfold mdcAddVertices at e
    exact foldlM_same _ (fun _ _ _ _ h => addVertex_same h) s s' e
  | .inner d ch, s, s', e => by
    unfold mdcAddVertices at e
    simp only [Option.bind_eq_bind] at e
    obtain ⟨s1, h1, e⟩ := Option.bind_eq_some_iff.1 e
    exact same_trans (foldlM_same _ (fun _ _ _ _ h => addVertex_same h) s s1 h1)
      (foldlM_same _ (fun i _ s s' h => addVertices_same (ch i) s s' h) s1 s' e)

theorem contour_alike {o o' : MdcOctree K} {ε : K} {m : PlacedMesh K} (e : o.contour ε = some (m, o')) : Alike o o' := by
  unfold MdcOctree.contour at e
  simp only [Option.bind_eq_bind] at e
  obtain ⟨s, h1, e⟩ := Option.bind_eq_some_iff.1 e
  obtain ⟨mesh, -, e⟩ := Option.bind_eq_some_iff.1 e
  cases e
  exact ⟨rfl, rfl, rfl, rfl, addVertices_same _ _ _ h1⟩

theorem alike_loose {o o' : MdcOctree K} (h : Alike o o') (hl : RootLoose o) : RootLoose o' := by
  intro a ha
  rw [h.root] at ha
  obtain ⟨v, hv, h1, h2⟩ := hl a ha
  obtain ⟨v', hv', e⟩ := same_get h.heap hv
  refine ⟨v', hv', ?_, ?_⟩
  · rw [← h1]
    have := congrArg MdcVertex.parent e
    exact this
  · rw [← h2]
    have := congrArg MdcVertex.surfaceIdx e
    exact this

/-- The size and place of an octree never change. -/
def SamePlace (o o' : MdcOctree K) : Prop := o'.level = o.level ∧ o'.globalPos = o.globalPos ∧ o'.globalScale = o.globalScale

theorem build_place {o o' : MdcOctree K} {g : Grid K} {solver q : Qef K 3} (e : o.build env g solver = some (q, o')) : SamePlace o o' := by
  unfold MdcOctree.build at e
  split at e
  · cases e
  · split at e
    · cases e
    · cases e; exact ⟨rfl, rfl, rfl⟩

theorem build_congr {o o1 : MdcOctree K} (h : SamePlace o o1) (g : Grid K) (solver : Qef K 3) : o1.build env g solver = o.build env g solver := by
  obtain ⟨h1, h2, h3⟩ := h
  unfold MdcOctree.build
  rw [h1]
  split
  · rfl
  · split
    · rfl
    · rw [h2, h3]

theorem step_loose {o o' : MdcOctree K} {op : MdcOp K} (hop : op.Ok) (h : RootLoose o) (e : o.step env op = some o') : RootLoose o' ∧ SamePlace o o' := by
  cases op with
  | build g solver =>
    simp only [MdcOctree.step] at e
    rcases rebuild_both (env := env) h g solver with ⟨-, a2⟩ | ⟨⟨q, o1⟩, ⟨q', o2⟩, a1, a2, e1, e2, e3⟩
    · rw [a2] at e; cases e
    · rw [a2] at e
      cases e
      have hp := build_place a1
      exact ⟨e3, e2.level.trans hp.1, e2.pos.trans hp.2.1, e2.scale.trans hp.2.2⟩
  | failed corners mask vs =>
    cases e
    refine ⟨?_, rfl, rfl, rfl⟩
    intro a ha
    simp only [MdcOctree.failed, vertsOf, List.mem_range'_1] at ha
    have hlt : a < vs.length := by omega
    exact ⟨vs[a], List.getElem?_eq_getElem hlt, hop _ (List.getElem_mem hlt)⟩
  | contour ε =>
    simp only [MdcOctree.step] at e
    obtain ⟨⟨m, o1⟩, h1, e⟩ := Option.map_eq_some_iff.1 e
    simp only at e
    subst e
    have := contour_alike h1
    exact ⟨alike_loose this h, this.level, this.pos, this.scale⟩

theorem run_loose : ∀ (ops : List (MdcOp K)) (o o' : MdcOctree K), (∀ op ∈ ops, op.Ok) → RootLoose o → o.run env ops = some o' → RootLoose o' ∧ SamePlace o o'
  | [], o, o', _, h, e => by
    unfold MdcOctree.run at e
    cases e; exact ⟨h, rfl, rfl, rfl⟩
  | op :: ops, o, o', hok, h, e => by
    unfold MdcOctree.run at e
    rw [List.foldlM_cons, Option.bind_eq_bind] at e
    obtain ⟨o1, h1, e⟩ := Option.bind_eq_some_iff.1 e
    obtain ⟨a1, a2, a3, a4⟩ := step_loose (hok op (by simp)) h h1
    obtain ⟨b1, b2, b3, b4⟩ := run_loose ops o1 o' (fun p hp => hok p (by simp [hp])) a1 e
    exact ⟨b1, b2.trans a2, b3.trans a3, b4.trans a4⟩

/-! ### The property -/

/-- **C68.**  An `MDC_Octree` object can be used again after any history of `build` calls (completed or ended by an exception, with
whatever vertices that leaves in the root) and `contour` calls: `build` on a filled grid then completes exactly if it does on the new
object, with the same state of the solver, and every mesh returned afterwards is the one the new object would give; these meshes are
manifold dual contouring meshes of the grid in the sense of `MdcSeries`. -/
theorem C68_reuse (hg : Filled g) {o0 o : MdcOctree K} (h0 : vertsOf o0.root = []) (ops : List (MdcOp K)) (hok : ∀ op ∈ ops, op.Ok)
    (hrun : o0.run env ops = some o) (solver : Qef K 3) (hin : CubeIn g.maxCoord (rootCube o0.level))
    (hsz : 4 * crossingCells g (rootCube o0.level) + 3 < 2 ^ 32) (hs : 0 < o0.globalScale * o0.globalScale) :
    (o0.build env g solver = none ∧ o.rebuild env g solver = none) ∨
    ∃ q n o', o0.build env g solver = some (q, n) ∧ o.rebuild env g solver = some (q, o') ∧
      ∃ (M : K → Mesh K) (V : K → CellCrossing → Nat), MdcSeries env g solver (rootCube o0.level) o0.globalScale M V ∧
        ∀ x, x = n ∨ x = o' → ∀ bounds : List K, ∃ o1, contourAll x bounds = some o1 ∧
          ∀ ε, ∃ o2, o1.contour ε = some (⟨M ε, o0.globalPos, o0.globalScale⟩, o2) := by
  obtain ⟨hl, hp⟩ := run_loose ops o0 o hok (by intro a ha; rw [h0] at ha; cases ha) hrun
  have hc := build_congr (env := env) hp g solver
  rcases rebuild_both (env := env) hl g solver with ⟨a1, a2⟩ | ⟨⟨q, n⟩, ⟨q', o'⟩, a1, a2, e1, e2, -⟩
  · exact Or.inl ⟨by rw [← hc]; exact a1, a2⟩
  · right
    simp only at e1 e2
    subst e1
    refine ⟨q', n, o', by rw [← hc]; exact a1, a2, ?_⟩
    rw [hc] at a1
    obtain ⟨b1, b2, b3, b4⟩ := mdcBuild_good hg hin hsz a1
    obtain ⟨M, V, m1, m2⟩ := contour_fun b1 hin (o := n) rfl rfl (by rw [b4]; exact hs)
    rw [b4] at m1
    refine ⟨M, V, m1, ?_⟩
    have key : ∀ (bounds : List K) (x : MdcOctree K), Alike n x → ∃ o1, contourAll x bounds = some o1 ∧ Alike n o1 := by
      intro bounds
      induction bounds with
      | nil => intro x hx; exact ⟨x, rfl, hx⟩
      | cons ε bounds ih =>
        intro x hx
        obtain ⟨heap1, c1, s1⟩ := m2 x.heap hx.heap ε
        have hxe : ({ n with heap := x.heap } : MdcOctree K) = x := by
          obtain ⟨u1, u2, u3, u4, -⟩ := hx
          cases n; cases x
          simp only at u1 u2 u3 u4
          subst u1 u2 u3 u4
          rfl
        rw [hxe] at c1
        obtain ⟨o1, c2, s2⟩ := ih { n with heap := heap1 } ⟨rfl, rfl, rfl, rfl, s1⟩
        refine ⟨o1, ?_, s2⟩
        unfold contourAll at c2 ⊢
        rw [List.foldlM_cons, c1]
        exact c2
    intro x hx bounds
    have hxa : Alike n x := by
      rcases hx with rfl | rfl
      · exact ⟨rfl, rfl, rfl, rfl, same_refl _⟩
      · exact e2
    obtain ⟨o1, c1, ha⟩ := key bounds x hxa
    refine ⟨o1, c1, fun ε => ?_⟩
    obtain ⟨heap1, c2, -⟩ := m2 o1.heap ha.heap ε
    have hxe : ({ n with heap := o1.heap } : MdcOctree K) = o1 := by
      obtain ⟨u1, u2, u3, u4, -⟩ := ha
      cases n; cases o1
      simp only at u1 u2 u3 u4
      subst u1 u2 u3 u4
      rfl
    rw [hxe, b3, b4] at c2
    exact ⟨_, c2⟩

/-- **C68**, completion.  With a positive tolerance of the solver and fewer than 22 million cells crossed by the surface (in particular up
to side 256), every `build` completes, whatever happened to the object before. -/
theorem C68_completes (hg : Filled g) {o0 o : MdcOctree K} (h0 : vertsOf o0.root = []) (ops : List (MdcOp K)) (hok : ∀ op ∈ ops, op.Ok)
    (hrun : o0.run env ops = some o) {solver : Qef K 3} (hin : CubeIn g.maxCoord (rootCube o0.level)) (hs : 0 < o0.globalScale * o0.globalScale)
    (hp : 0 < solver.pinvTolerance) (hsz : 48 * crossingCells g (rootCube o0.level) < 2 ^ 30 ∨ o0.level ≤ 8) :
    ∃ r, o.rebuild env g solver = some r := by
  obtain ⟨hl, hpl⟩ := run_loose ops o0 o hok (by intro a ha; rw [h0] at ha; cases ha) hrun
  obtain ⟨q', o', _, hb, -⟩ := C28_completes (env := env) hg o0 hin hs hp hsz []
  rw [← build_congr (env := env) hpl g solver] at hb
  rcases rebuild_both (env := env) hl g solver with ⟨a1, a2⟩ | ⟨_, b, -, a2, -⟩
  · rw [a1] at hb; cases hb
  · exact ⟨b, a2⟩

/-- After a failed `build` the octree is a leaf whose left-over vertices are in the mesh of the next `contour`, without triangles. -/
theorem C68_leftover (o : MdcOctree K) (corners : Fin 8 → Material) (mask : Nat) (v : MdcVertex K) (hv : v.parent = none) (ε : K) :
    ∃ o', (o.failed corners mask [v]).contour ε = some (⟨⟨[⟨v.position, v.normal, v.material⟩], []⟩, o.globalPos, o.globalScale⟩, o') := by
  have h : ((o.failed corners mask [v]).contour ε).map (·.1) = some ⟨⟨[⟨v.position, v.normal, v.material⟩], []⟩, o.globalPos, o.globalScale⟩ := by
    unfold MdcOctree.contour MdcOctree.failed mdcAddVertices
    simp [List.range', mdcAddVertex, hasCollapsibleAncestor, hv, write, Mesh.addVertex, Mesh.new, Trav.cellProc]
  obtain ⟨⟨m, o'⟩, e, rfl⟩ := Option.map_eq_some_iff.1 h
  exact ⟨o', e⟩

/-- A history with completed builds, a failed one that left a vertex behind and contours, for the grid of a ball. -/
example (env : DcEnv ℝ) : ∃ (g : Grid ℝ) (o0 o : MdcOctree ℝ), Filled g ∧ vertsOf o0.root = [] ∧ CubeIn g.maxCoord (rootCube o0.level) ∧ o0.globalScale ≠ 0 ∧
    4 * crossingCells g (rootCube o0.level) + 3 < 2 ^ 32 ∧
    o0.run env [.build g Qef.new3, .contour 0, .failed (fun _ => .Empty) 0 [MdcVertex.new], .build g Qef.new3, .contour 1] = some o := by
  obtain ⟨g, o, q', o', h1, -, h3, h4, h5, h6, -⟩ := ball_mdc env
  refine ⟨g, { o with root := .leaf ⟨0, fun _ => .Empty, 0, []⟩, heap := [] }, ?_⟩
  generalize ho : ({ o with root := .leaf ⟨0, fun _ => .Empty, 0, []⟩, heap := [] } : MdcOctree ℝ) = o0
  have hp : SamePlace o o0 := by subst ho; exact ⟨rfl, rfl, rfl⟩
  have hv : vertsOf o0.root = [] := by subst ho; rfl
  rw [← hp.1] at h3 h5
  rw [← hp.2.2] at h4
  rw [← build_congr (env := env) hp] at h6
  have key : ∀ ops o1, (∀ op ∈ ops, op.Ok) → o0.run env ops = some o1 → ∃ r, o1.rebuild env g Qef.new3 = some r ∧ ∀ ε, ∃ m, r.2.contour ε = some m := by
    intro ops o1 hok hr
    rcases C68_reuse h1 hv ops hok hr Qef.new3 h3 h5 (mul_self_pos.2 h4) with ⟨h, -⟩ | ⟨q, n, o2, -, h, M, V, -, hc⟩
    · rw [h] at h6; cases h6
    · refine ⟨_, h, fun ε => ?_⟩
      obtain ⟨o3, e3, hh⟩ := hc o2 (Or.inr rfl) []
      cases e3
      obtain ⟨o4, e4⟩ := hh ε
      exact ⟨_, e4⟩
  obtain ⟨⟨q1, o1⟩, e1, c1⟩ := key [] o0 (by simp) rfl
  obtain ⟨⟨m2, o2⟩, e2⟩ := c1 0
  have r3 : o0.run env [.build g Qef.new3, .contour 0, .failed (fun _ => .Empty) 0 [MdcVertex.new]] = some (o2.failed (fun _ => .Empty) 0 [MdcVertex.new]) := by
    unfold MdcOctree.run
    simp only [List.foldlM_cons, List.foldlM_nil, MdcOctree.step, e1, e2, Option.map_some, Option.bind_eq_bind, Option.bind_some]
    rfl
  have hok : ∀ op ∈ [MdcOp.build g Qef.new3, .contour 0, .failed (fun _ => .Empty) 0 [MdcVertex.new]], op.Ok := by
    intro op hop
    simp only [List.mem_cons, List.not_mem_nil, or_false] at hop
    rcases hop with rfl | rfl | rfl
    · trivial
    · trivial
    · intro v hv
      rw [List.mem_singleton.1 hv]
      exact ⟨rfl, rfl⟩
  obtain ⟨⟨q4, o4⟩, e4, c4⟩ := key _ _ hok r3
  obtain ⟨⟨m5, o5⟩, e5⟩ := c4 1
  refine ⟨o5, h1, hv, h3, h4, h5, ?_⟩
  unfold MdcOctree.run at r3 ⊢
  simp only [List.foldlM_cons, List.foldlM_nil, MdcOctree.step, e1, e2, Option.map_some, Option.bind_eq_bind, Option.bind_some] at r3 ⊢
  simp only [e4, e5, Option.map_some, Option.bind_some]
  rfl

end Isomesh
