import Verif.Proofs.TriNodeMem

/-! Destruction of and search in the triangle octree in memory; the loop of `MeshField::load`. -/

namespace Isomesh

noncomputable section
open scoped Classical

/-- The memory without the nodes with the property `P`. -/
def TriMem.clear (s : TriMem) (P : Nat → Prop) : TriMem := { s with mem := fun x => if P x then none else s.mem x }

theorem triClear_false (s : TriMem) : s.clear (fun _ => False) = s := by
  simp [TriMem.clear]

theorem triClear_clear (s : TriMem) (P Q : Nat → Prop) : (s.clear P).clear Q = s.clear fun x => P x ∨ Q x := by
  unfold TriMem.clear
  congr 1
  funext x
  dsimp only
  by_cases h1 : P x <;> by_cases h2 : Q x <;> simp [h1, h2]

theorem memDelete_spec : ∀ (t : TriPtrTree) (s : TriMem) (a : Nat), t.Rep s.mem (some a) → t.Sep → memDelete a s = some (s.clear t.Has)
  | .null, _, _, h, _ => by simp [TriPtrTree.Rep] at h
  | .leaf c p hf lv tris, s, a, ⟨h1, h2⟩, _ => by
    obtain rfl : a = c := by injection h1
    rw [memDelete]
    simp only [h2, if_true, Option.bind_eq_bind, Option.bind_some]
    congr 1
    unfold TriMem.free TriMem.clear
    congr 1
    funext x
    by_cases hx : x = a <;> simp [TriPtrTree.Has, hx, Function.update]
  | .inner c p hf lv ch, s, a, ⟨h1, child, old, h2, h3⟩, hs => by
    obtain rfl : a = c := by injection h1
    have hloop : ∀ (is : List (Fin 8)) (s : TriMem), is.Nodup → (∀ i ∈ is, (ch i).Rep s.mem (child i)) →
        is.foldlM (fun s i => match child i with
          | none => some s
          | some c => memDelete c s) s = some (s.clear fun x => ∃ i ∈ is, (ch i).Has x) := by
      intro is
      induction is with
      | nil =>
        intro s _ _
        simp only [List.foldlM_nil, List.not_mem_nil, false_and, exists_false]
        rw [triClear_false]
        rfl
      | cons i is ih =>
        intro s hnd hrep
        rw [List.foldlM_cons]
        have hri := hrep i (by simp)
        have e1 : (match child i with
            | none => some s
            | some c => memDelete c s) = some (s.clear (ch i).Has) := by
          cases hc : child i with
          | none =>
            rw [hc] at hri
            have : ch i = .null := by
              cases hh : ch i with
              | null => rfl
              | leaf => rw [hh] at hri; simp [TriPtrTree.Rep] at hri
              | inner => rw [hh] at hri; simp [TriPtrTree.Rep] at hri
            rw [this]
            have : TriPtrTree.null.Has = fun _ => False := by funext x; rfl
            rw [this, triClear_false]
          | some c =>
            rw [hc] at hri
            exact memDelete_spec (ch i) s c hri (hs.1 i).1
        rw [e1]
        simp only [Option.bind_eq_bind, Option.bind_some]
        have hne : ∀ j ∈ is, j ≠ i := fun j hj e => (List.nodup_cons.mp hnd).1 (e ▸ hj)
        rw [ih _ (List.nodup_cons.mp hnd).2, triClear_clear]
        · congr 2
          funext x
          simp
        · intro j hj
          refine mrep_congr _ _ (fun x hx => ?_) (hrep j (by simp [hj]))
          show (if (ch i).Has x then none else s.mem x) = s.mem x
          rw [if_neg (hs.2 j i (hne j hj) x hx)]
    rw [memDelete]
    simp only [h2, Bool.false_eq_true, if_false, Option.bind_eq_bind]
    refine (congrArg (fun o : Option TriMem => o.bind _) (hloop _ s (List.nodup_finRange 8) (fun i _ => h3 i))).trans ?_
    simp only [Option.bind_some]
    have ha : (s.clear fun x => ∃ i ∈ List.finRange 8, (ch i).Has x).mem a = some ⟨p, hf, false, lv, child, old⟩ := by
      refine Eq.trans ?_ h2
      refine if_neg ?_
      rintro ⟨i, -, hi⟩
      exact (hs.1 i).2 hi
    rw [ha]
    dsimp only
    congr 1
    unfold TriMem.free TriMem.clear
    congr 1
    funext x
    by_cases hx : x = a
    · simp [TriPtrTree.Has, hx]
    · simp [TriPtrTree.Has, hx, Function.update_of_ne]

theorem memNear_spec {mem : Nat → Option TriRaw} (p : Vec3 ℝ) : ∀ (t : TriPtrTree) (a : Nat) (r : NearState), t.Rep mem (some a) →
    memNear mem p a r = some (t.tree.near p r)
  | .null, _, _, h => by simp [TriPtrTree.Rep] at h
  | .leaf c q hf lv tris, a, r, ⟨h1, h2⟩ => by
    obtain rfl : a = c := by injection h1
    rw [memNear]
    simp only [h2, if_true, TriPtrTree.tree, TriTree.near]
    split_ifs <;> rfl
  | .inner c q hf lv ch, a, r, ⟨h1, child, old, h2, h3⟩ => by
    obtain rfl : a = c := by injection h1
    have hchild : ∀ i r, (match child i with
        | none => some r
        | some c => memNear mem p c r) = some ((ch i).tree.near p r) := by
      intro i r
      have hri := h3 i
      cases hc : child i with
      | none =>
        rw [hc] at hri
        have : ch i = .null := by
          cases hh : ch i with
          | null => rfl
          | leaf => rw [hh] at hri; simp [TriPtrTree.Rep] at hri
          | inner => rw [hh] at hri; simp [TriPtrTree.Rep] at hri
        rw [this]
        rfl
      | some c =>
        rw [hc] at hri
        exact memNear_spec p (ch i) c r hri
    rw [memNear]
    simp only [h2, Bool.false_eq_true, if_false, TriPtrTree.tree, TriTree.near, Option.bind_eq_bind]
    by_cases hd : distanceToNode q hf p > r.bound
    · rw [if_pos hd, if_pos hd]
    · rw [if_neg hd, if_neg hd]
      have hloop : ∀ (is : List (Fin 8)) (r : NearState), is.foldlM (fun r i => if i ≠ triIndex q hf p then
          (match child i with
          | none => some r
          | some c => memNear mem p c r) else some r) r =
          some (is.foldl (fun s i => if i ≠ triIndex q hf p then (ch i).tree.near p s else s) r) := by
        intro is
        induction is with
        | nil => intro r; rfl
        | cons i is ih =>
          intro r
          rw [List.foldlM_cons, List.foldl_cons, ← ih]
          by_cases hi : i ≠ triIndex q hf p
          · rw [if_pos hi, if_pos hi, hchild]; rfl
          · rw [if_neg hi, if_neg hi]; rfl
      have h0 := hchild (triIndex q hf p) r
      cases hc : child (triIndex q hf p) with
      | none =>
        rw [hc] at h0
        exact (congrArg (fun o : Option NearState => o.bind _) h0).trans (hloop _ _)
      | some c =>
        rw [hc] at h0
        exact (congrArg (fun o : Option NearState => o.bind _) h0).trans (hloop _ _)

theorem memValue_spec {mem : Nat → Option TriRaw} {t : TriPtrTree} {a : Nat} (h : t.Rep mem (some a)) (fltMax : ℝ) (junk : Tri) (x y z : ℝ) :
    memValue fltMax junk mem a x y z = MeshField.value fltMax junk ⟨some t.tree⟩ x y z := by
  unfold memValue MeshField.value
  rw [memNear_spec _ t a _ h]
  rfl

/-- Allocations for inserting a list. -/
def fillNeed (grows : Nat → Bool) : TriTree → List Tri → Nat
  | _, [] => 0
  | t, x :: l => t.need grows x + fillNeed grows (t.ins x) l

theorem triFill_spec {grows : Nat → Bool} {d : PlyData ℝ} {a : Nat} {pos : Vec3 ℝ} {half : ℝ} {level : Nat} : ∀ (l : List Tri) (i : Nat) (s : TriMem) (t : TriPtrTree),
    (∀ j T, l[j]? = some T → ∃ u, d.triangle (i + j) = some u ∧ T = Tri.make u.1 u.2.1 u.2.2) → s.Owned (some a) t → t.tree.Boxed pos half level →
    ∃ b s' t', fieldFill grows d a l.length i s = some (b, s') ∧ s'.Owned (some a) t' ∧ Grown s s' t t' ∧
      (fillNeed grows t.tree l ≤ s.budget → b = true ∧ t'.tree = l.foldl (fun t x => t.ins x) t.tree) ∧
      (s.budget < fillNeed grows t.tree l → b = false ∧ ∃ k x, l[k]? = some x ∧
        ((l.take k).foldl (fun t x => t.ins x) t.tree).Broken pos half level x t'.tree)
  | [], i, s, t, _, ho, _ => ⟨true, s, t, rfl, ho, grown_refl _ _, fun _ => ⟨rfl, rfl⟩, fun hh => by simp [fillNeed] at hh⟩
  | x :: l, i, s, t, hd, ho, hb => by
    obtain ⟨u, hu1, hu2⟩ := hd 0 x rfl
    have hn : t ≠ .null := by
      rintro rfl
      have := ho.rep
      simp [TriPtrTree.Rep] at this
    obtain ⟨b, s1, t1, e1, o1, g1, r1⟩ := insSpec grows x t hn a s pos half level ho hb
    rw [List.length_cons, fieldFill]
    simp only [Nat.add_zero] at hu1
    rw [hu1]
    simp only [Option.bind_eq_bind, Option.bind_some]
    rw [← hu2, e1]
    simp only [Option.bind_some, fillNeed]
    cases b with
    | false =>
      rw [if_neg (by simp)]
      refine ⟨false, s1, t1, rfl, o1, g1, fun hh => ?_, fun hh => ⟨rfl, 0, x, rfl, ?_⟩⟩
      · have := (r1.enough (by omega)).1
        simp at this
      · simpa using r1.bad rfl
    | true =>
      rw [if_pos rfl]
      have ht1 := r1.good rfl
      obtain ⟨b, s2, t2, e2, o2, g2, k2, k3⟩ := triFill_spec (grows := grows) (d := d) (a := a) (pos := pos) (half := half) (level := level) l (i + 1) s1 t1 (fun j T hT => by
        have := hd (j + 1) T (by simpa using hT)
        rwa [show i + (j + 1) = i + 1 + j by omega] at this) o1 (by rw [ht1]; exact ins_boxed hb x)
      have hle : t.tree.need grows x ≤ s.budget := by
        by_contra hc
        have := r1.short (by omega)
        simp at this
      obtain ⟨-, q⟩ := r1.enough hle
      rw [ht1] at k2 k3
      refine ⟨b, s2, t2, e2, o2, grown_trans g1 g2, fun hh => ?_, fun hh => ?_⟩
      · exact k2 (by omega)
      · obtain ⟨k4, k, y, k5, k6⟩ := k3 (by omega)
        exact ⟨k4, k + 1, y, by simpa using k5, by simpa using k6⟩

end
end Isomesh
