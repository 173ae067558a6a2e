import Verif.Proofs.TriNodeMem2
import Verif.Props.MeshField

/-! Property C80: memory of the triangle octree and of `MeshField`, with any allocation failing. -/

namespace Isomesh

noncomputable section
open scoped Classical

/-! ### Insertion -/

/-- C80: `insert` follows only valid pointers.  If its allocations succeed the tree becomes that of C41; if one of them fails, the
exception leaves a tree with the same owner that contains only the former triangles and perhaps the new one, and whatever is lost was
stored in one full leaf.  In both cases every node allocated belongs to the tree and no other node has changed. -/
theorem C80_insert (grows : Nat → Bool) (x : Tri) (t : TriPtrTree) (a : Nat) (s : TriMem) (pos : Vec3 ℝ) (half : ℝ) (level : Nat)
    (hs : s.Owned (some a) t) (hb : t.tree.Boxed pos half level) :
    ∃ b s' t', memInsert grows a x s = some (b, s') ∧ s'.Owned (some a) t' ∧ Grown s s' t t' ∧
      (t.tree.need grows x ≤ s.budget → b = true ∧ s'.budget + t.tree.need grows x = s.budget ∧ t.tree.insert x = some t'.tree) ∧
      (s.budget < t.tree.need grows x → b = false ∧ t.tree.Broken pos half level x t'.tree) := by
  have hn : t ≠ .null := by
    rintro rfl
    have := hs.rep
    simp [TriPtrTree.Rep] at this
  have hn' : t.tree ≠ .null := by
    cases t with
    | null => exact absurd rfl hn
    | leaf => simp [TriPtrTree.tree]
    | inner => simp [TriPtrTree.tree]
  obtain ⟨b, s', t', h1, h2, h3, h4⟩ := insSpec grows x t hn a s pos half level hs hb
  refine ⟨b, s', t', h1, h2, h3, fun h => ?_, fun h => ?_⟩
  · obtain ⟨k1, k2⟩ := h4.enough h
    exact ⟨k1, k2, by rw [insert_eq hb hn', h4.good k1]⟩
  · exact ⟨h4.short h, h4.bad (h4.short h)⟩

/-- C80: if no memory is left when a full leaf must be subdivided, all its triangles are lost. -/
theorem C80_lost (grows : Nat → Bool) (x : Tri) (a : Nat) (s : TriMem) (pos : Vec3 ℝ) (half : ℝ) (level : Nat) (tris : List Tri)
    (hs : s.Owned (some a) (.leaf a pos half level tris)) (hl : level < 15) (h60 : tris.length = 60) (h0 : s.budget = 0) :
    ∃ s' t', memInsert grows a x s = some (false, s') ∧ s'.Owned (some a) t' ∧ ∀ y, ¬ t'.tree.Stored y := by
  obtain ⟨-, h2⟩ := hs.rep
  cases tris with
  | nil => simp at h60
  | cons y ys =>
    have hp : (s.put a ⟨pos, half, false, level, fun _ => none, y :: ys⟩).mem a = some ⟨pos, half, false, level, fun _ => none, y :: ys⟩ := by
      simp [TriMem.put]
    refine ⟨s.put a ⟨pos, half, false, level, fun _ => none, y :: ys⟩, .inner a pos half level fun _ => .null, ?_, ?_, ?_⟩
    · rw [memInsert]
      simp only [h2, if_true]
      rw [if_neg (by simp only [splitTrianglesLimit, triMaxDepth]; omega)]
      rw [memSplit, memAsNode]
      simp only [hp]
      rw [memByIndex]
      simp only [hp]
      simp [TriMem.put, h0]
    · refine ⟨⟨rfl, fun _ => none, y :: ys, hp, fun _ => rfl⟩, ⟨fun i => ⟨trivial, id⟩, fun i j _ x hx => hx.elim⟩, fun z hz => ?_⟩
      have hza : z ≠ a := by
        rintro rfl
        rw [hs.unused z hz] at h2
        simp at h2
      simp only [TriMem.put, Function.update_of_ne hza]
      exact hs.unused z hz
    · intro z hz
      rw [TriPtrTree.tree, stored_inner] at hz
      obtain ⟨i, hi⟩ := hz
      exact stored_null z hi

/-- The memory of `C80_lost`: sixty triangles in a new tree. -/
example : ∃ s : TriMem, s.Owned (some 0) (.leaf 0 ⟨0, 0, 0⟩ 8 0 (List.replicate 60 demoTri)) ∧ s.budget = 0 :=
  ⟨⟨fun x => if x = 0 then some ⟨⟨0, 0, 0⟩, 8, true, 0, fun _ => none, List.replicate 60 demoTri⟩ else none, 1, 0⟩,
    ⟨⟨rfl, by simp⟩, trivial, fun x hx => if_neg (by dsimp only at hx; omega)⟩, rfl⟩

/-! ### Loading -/

theorem root_null {m : FieldMem} {t : TriPtrTree} (h : m.heap.Owned m.root t) (hr : m.root = none) : t = .null := by
  have := h.rep
  rw [hr] at this
  cases t with
  | null => rfl
  | leaf => simp [TriPtrTree.Rep] at this
  | inner => simp [TriPtrTree.Rep] at this

/-- Loading: the tree is that of `C64_load`.  According to the number `b` of allocations that succeed:
fewer than `PlyData` needs - exception, nothing happens; just as many - exception, the old tree is freed but the pointer to it stays;
fewer than `need` for the tree - exception, the field holds the tree of the first triangles (`C80_insert` about the last of them);
otherwise the new tree. -/
theorem C80_load (grows : Nat → Bool) (fltMax fltMin : ℝ) (ply : Nat) (f : PlyFile ℝ) (hf : f.Sound) (reverse : Bool) :
    ∃ half pos l root need, f.FieldTris fltMax fltMin reverse l ∧ TriTree.build half pos l = some root ∧
      MeshField.load fltMax fltMin f reverse MeshField.new = some ⟨some root⟩ ∧
      ∀ (m : FieldMem) (t0 : TriPtrTree), m.heap.Owned m.root t0 →
        (m.heap.budget < ply → m.load grows fltMax fltMin ply (some f) reverse = some (false, { m with heap := { m.heap with budget := 0 } })) ∧
        (m.heap.budget = ply → m.load grows fltMax fltMin ply (some f) reverse =
          some (false, ⟨m.root, ⟨fun x => if t0.Has x then none else m.heap.mem x, m.heap.next, 0⟩⟩)) ∧
        (ply < m.heap.budget → ∃ ok m' t', m.load grows fltMax fltMin ply (some f) reverse = some (ok, m') ∧
          m'.heap.Owned m'.root t' ∧ t' ≠ .null ∧ (∀ x, ¬ t'.Has x → m'.heap.mem x = if t0.Has x then none else m.heap.mem x) ∧
          (ply + 1 + need ≤ m.heap.budget → ok = true ∧ t'.tree = root) ∧
          (m.heap.budget < ply + 1 + need → ok = false ∧ ∃ k x tk, l[k]? = some x ∧ TriTree.build half pos (l.take k) = some tk ∧
            tk.Broken pos half 0 x t'.tree)) := by
  obtain ⟨half, pos, l, root, h1, h2, h3, h4, h5, h6, h7, d0, d, x0, x1, y0, y1, z0, z1, e1, e2, e3, e4, e5, e6, e7⟩ :=
    load_parts fltMax fltMin f hf reverse MeshField.new
  refine ⟨half, pos, l, root, fillNeed grows (TriTree.new half 0 pos) l, h1, h2, h7, fun m t0 hm => ?_⟩
  have hnot : ∀ x, m.heap.next ≤ x → ¬ t0.Has x := fun x hx hh => by have := hm.lt hh; omega
  -- the old tree is deleted
  have hdel : ∀ b, fieldDelete m.root ⟨m.heap.mem, m.heap.next, b⟩ = some ⟨fun x => if t0.Has x then none else m.heap.mem x, m.heap.next, b⟩ := by
    intro b
    cases hr : m.root with
    | none =>
      rw [root_null hm hr, fieldDelete]
      congr 2
      funext x
      exact (if_neg id).symm
    | some a =>
      have := hm.rep
      rw [hr] at this
      exact memDelete_spec t0 ⟨m.heap.mem, m.heap.next, b⟩ a this hm.sep
  refine ⟨fun hb => ?_, fun hb => ?_, fun hb => ?_⟩
  · unfold FieldMem.load
    dsimp only
    rw [if_pos hb]
  · unfold FieldMem.load
    dsimp only
    rw [if_neg (by omega), e1, Option.bind_eq_bind, Option.bind_some, e2, e3, Option.bind_eq_bind, Option.bind_some]
    dsimp only
    rw [hdel, Option.bind_eq_bind, Option.bind_some]
    dsimp only
    rw [if_pos (by omega), show m.heap.budget - ply = 0 by omega]
  · have hload : m.load grows fltMax fltMin ply (some f) reverse =
        (fieldFill grows d m.heap.next l.length 0 (TriMem.alloc ⟨fun x => if t0.Has x then none else m.heap.mem x, m.heap.next, m.heap.budget - ply⟩
          (TriRaw.new half 0 pos))).bind fun r => some (r.1, ⟨some m.heap.next, r.2⟩) := by
      unfold FieldMem.load
      dsimp only
      rw [if_neg (by omega), e1, Option.bind_eq_bind, Option.bind_some, e2, e3, Option.bind_eq_bind, Option.bind_some]
      dsimp only
      rw [hdel, Option.bind_eq_bind, Option.bind_some]
      dsimp only
      rw [if_neg (by omega), e6, e4, e5]
      rfl
    have hown : (TriMem.alloc ⟨fun x => if t0.Has x then none else m.heap.mem x, m.heap.next, m.heap.budget - ply⟩ (TriRaw.new half 0 pos)).Owned
        (some m.heap.next) (.leaf m.heap.next pos half 0 []) := by
      refine ⟨⟨rfl, by simp [TriMem.alloc, TriRaw.new]⟩, trivial, fun x hx => ?_⟩
      simp only [TriMem.alloc] at hx ⊢
      rw [Function.update_of_ne (by omega), if_neg (hnot x (by omega))]
      exact hm.unused x (by omega)
    obtain ⟨b, s', t', k1, k2, k3, k4, k5⟩ := triFill_spec (grows := grows) (d := d) (pos := pos) (half := half) (level := 0) l 0 _ _
      (fun j T hT => by simpa using e7 j T hT) hown ⟨rfl, rfl, rfl, by omega, Or.inl (by simp)⟩
    refine ⟨b, ⟨some m.heap.next, s'⟩, t', ?_, k2, ?_, ?_, ?_, ?_⟩
    · rw [hload, k1]; rfl
    · rintro rfl
      have := k2.rep
      simp [TriPtrTree.Rep] at this
    · intro x hx
      have hx' : ¬ (x = m.heap.next ∨ (m.heap.next + 1 ≤ x ∧ x < s'.next)) := fun hh => hx ((k3.has x).mpr hh)
      by_cases hlt : x < m.heap.next + 1
      · have := k3.keep x (fun hh => hx' (Or.inl hh)) hlt
        dsimp only
        rw [this]
        simp only [TriMem.alloc]
        rw [Function.update_of_ne (by omega)]
      · dsimp only
        rw [k2.unused x (by omega), if_neg (hnot x (by omega)), hm.unused x (by omega)]
    · intro hh
      have := k4 (by
        show fillNeed grows (TriTree.new half 0 pos) l ≤ m.heap.budget - ply - 1
        omega)
      refine ⟨this.1, this.2.trans ?_⟩
      have := build_append half pos [] rfl l
      rw [List.nil_append, h2] at this
      exact (Option.some.inj this).symm
    · intro hh
      obtain ⟨q1, k, x, q2, q3⟩ := k5 (by
        show m.heap.budget - ply - 1 < fillNeed grows (TriTree.new half 0 pos) l
        omega)
      exact ⟨q1, k, x, _, q2, by
        have := build_append half pos [] rfl (l.take k)
        rwa [List.nil_append] at this, q3⟩

/-- C80: a file that cannot be opened or parsed leaves the field as it was. -/
theorem C80_no_file (grows : Nat → Bool) (fltMax fltMin : ℝ) (ply : Nat) (reverse : Bool) (m : FieldMem) :
    m.load grows fltMax fltMin ply none reverse = some (false, m) := rfl

/-! ### Queries -/

theorem owned_node {m : FieldMem} {t : TriPtrTree} (h : m.heap.Owned m.root t) (hn : t ≠ .null) :
    ∃ a n, m.root = some a ∧ m.heap.mem a = some n ∧ t.Rep m.heap.mem (some a) ∧ t.tree.halfSize = some n.half := by
  have := h.rep
  cases t with
  | null => exact absurd rfl hn
  | leaf a pos half level tris =>
    obtain ⟨h1, h2⟩ := this
    exact ⟨a, _, h1, h2, ⟨rfl, h2⟩, rfl⟩
  | inner a pos half level ch =>
    obtain ⟨h1, child, old, h2, h3⟩ := this
    exact ⟨a, _, h1, h2, ⟨rfl, child, old, h2, h3⟩, rfl⟩

/-- C80: a query on the nodes in memory gives the result of C64 for the tree they form; if one of its allocations fails the program
ends. -/
theorem C80_value (fltMax : ℝ) (junk : Tri) (m : FieldMem) (t : TriPtrTree) (hm : m.heap.Owned m.root t) (hn : t ≠ .null) (x y z : ℝ) :
    (5 ≤ m.heap.budget → ∃ v, m.value fltMax junk x y z = some (.answer v) ∧ MeshField.value fltMax junk ⟨some t.tree⟩ x y z = some v) ∧
    (m.heap.budget < 5 → m.value fltMax junk x y z = some .terminate) := by
  obtain ⟨a, n, h1, h2, h3, h4⟩ := owned_node hm hn
  refine ⟨fun hb => ?_, fun hb => ?_⟩
  · refine ⟨_, ?_, rfl⟩
    unfold FieldMem.value
    simp only [h1, h2]
    rw [if_neg (by omega), memValue_spec h3]
    rfl
  · unfold FieldMem.value
    simp only [h1, h2]
    rw [if_pos hb]

/-- C80: the same for the gradient. -/
theorem C80_grad (fltMax : ℝ) (junk : Tri) (m : FieldMem) (t : TriPtrTree) (hm : m.heap.Owned m.root t) (hn : t ≠ .null) (x y z : ℝ) :
    (30 ≤ m.heap.budget → ∃ v, m.grad fltMax junk x y z = some (.answer v) ∧ MeshField.grad fltMax junk ⟨some t.tree⟩ x y z = some v) ∧
    (m.heap.budget < 30 → m.grad fltMax junk x y z = some .terminate) := by
  obtain ⟨a, n, h1, h2, h3, h4⟩ := owned_node hm hn
  refine ⟨fun hb => ?_, fun hb => ?_⟩
  · have hg : m.grad fltMax junk x y z = (MeshField.grad fltMax junk ⟨some t.tree⟩ x y z).map .answer := by
      unfold FieldMem.grad MeshField.grad
      simp only [h1, h2]
      rw [if_neg (by omega)]
      simp only [memValue_spec h3, Option.bind_eq_bind, Option.bind_some, h4]
      rfl
    have hd : ∃ v, MeshField.grad fltMax junk ⟨some t.tree⟩ x y z = some v := by
      unfold MeshField.grad
      simp only [Option.bind_eq_bind, Option.bind_some, h4]
      exact ⟨_, rfl⟩
    obtain ⟨v, hv⟩ := hd
    exact ⟨v, by rw [hg, hv]; rfl, hv⟩
  · unfold FieldMem.grad
    simp only [h1, h2]
    rw [if_pos hb]

/-- C80: a query before any file has been loaded follows the null pointer. -/
theorem C80_unloaded (fltMax : ℝ) (junk : Tri) (m : FieldMem) (t : TriPtrTree) (hm : m.heap.Owned m.root t) (hn : t = .null) (x y z : ℝ) :
    m.value fltMax junk x y z = none ∧ m.grad fltMax junk x y z = none := by
  subst hn
  have h : m.root = none := hm.rep
  refine ⟨?_, ?_⟩
  · unfold FieldMem.value
    simp only [h]
  · unfold FieldMem.grad
    simp only [h]

/-- The field points to a freed node. -/
def FieldMem.Dangling (m : FieldMem) : Prop := ∃ a, m.root = some a ∧ m.heap.mem a = none

/-- C80: after that, any query and any further loading uses freed memory. -/
theorem C80_dangling (m : FieldMem) (h : m.Dangling) (grows : Nat → Bool) (fltMax fltMin : ℝ) (junk : Tri) (x y z : ℝ) :
    m.value fltMax junk x y z = none ∧ m.grad fltMax junk x y z = none ∧
    ∀ ply (f : PlyFile ℝ) reverse, f.Sound → ply ≤ m.heap.budget → m.load grows fltMax fltMin ply (some f) reverse = none := by
  obtain ⟨a, h1, h2⟩ := h
  refine ⟨?_, ?_, fun ply f reverse hf hb => ?_⟩
  · unfold FieldMem.value
    simp only [h1, h2]
  · unfold FieldMem.grad
    simp only [h1, h2]
  · obtain ⟨half, pos, l, root, -, -, -, -, -, -, -, d0, d, x0, x1, y0, y1, z0, z1, e1, e2, e3, -⟩ :=
      load_parts fltMax fltMin f hf reverse MeshField.new
    unfold FieldMem.load
    dsimp only
    rw [if_neg (by omega), e1, Option.bind_eq_bind, Option.bind_some, e2, e3, Option.bind_eq_bind, Option.bind_some]
    dsimp only
    simp only [h1]
    rw [fieldDelete, memDelete]
    simp only [h2]
    rfl

/-! ### Histories -/

/-- The states of a field that is alone in the memory: it is created, files are loaded into it, whether or not this succeeds, and the
number of allocations that will succeed changes at will. -/
inductive FieldReach (grows : Nat → Bool) (fltMax fltMin : ℝ) : FieldMem → Prop
  | new (b : Nat) : FieldReach grows fltMax fltMin ⟨none, ⟨fun _ => none, 0, b⟩⟩
  | memory {m : FieldMem} (h : FieldReach grows fltMax fltMin m) (b : Nat) : FieldReach grows fltMax fltMin ⟨m.root, ⟨m.heap.mem, m.heap.next, b⟩⟩
  | load {m : FieldMem} (h : FieldReach grows fltMax fltMin m) (ply : Nat) (file : Option (PlyFile ℝ)) (hf : ∀ f, file = some f → f.Sound)
      (reverse ok : Bool) {m' : FieldMem} (hl : m.load grows fltMax fltMin ply file reverse = some (ok, m')) : FieldReach grows fltMax fltMin m'

/-- C80: at any time, the nodes in memory are just those of one tree, which the field owns - or there are none and the field points to a
freed node. -/
theorem C80_history (grows : Nat → Bool) (fltMax fltMin : ℝ) (m : FieldMem) (h : FieldReach grows fltMax fltMin m) :
    (∃ t, m.heap.Owned m.root t ∧ ∀ x, m.heap.mem x ≠ none ↔ t.Has x) ∨ ((∃ a, m.root = some a) ∧ ∀ x, m.heap.mem x = none) := by
  have has_mem : ∀ {mem : Nat → Option TriRaw} {p : Option Nat} (t : TriPtrTree), t.Rep mem p → ∀ x, t.Has x → mem x ≠ none := by
    intro mem p t
    induction t generalizing p with
    | null => intro _ x hx; exact hx.elim
    | leaf a pos half level tris =>
      rintro ⟨-, h2⟩ x rfl
      rw [h2]; simp
    | inner a pos half level ch ih =>
      rintro ⟨-, child, old, h2, h3⟩ x (rfl | ⟨i, hi⟩)
      · rw [h2]; simp
      · exact ih i (h3 i) x hi
  induction h with
  | new b => exact Or.inl ⟨.null, ⟨rfl, trivial, fun _ _ => rfl⟩, fun x => by simp [TriPtrTree.Has]⟩
  | memory h b ih =>
    rcases ih with ⟨t, h1, h2⟩ | h1
    · exact Or.inl ⟨t, ⟨h1.rep, h1.sep, h1.unused⟩, h2⟩
    · exact Or.inr h1
  | @load m h ply file hf reverse ok m' hl ih =>
    cases file with
    | none =>
      rw [C80_no_file] at hl
      cases hl
      exact ih
    | some f =>
      have hf' := hf f rfl
      rcases ih with ⟨t, h1, h2⟩ | ⟨⟨a, h1⟩, h2⟩
      · obtain ⟨half, pos, l, root, need, -, -, -, hall⟩ := C80_load grows fltMax fltMin ply f hf' reverse
        obtain ⟨k1, k2, k3⟩ := hall m t h1
        rcases lt_trichotomy m.heap.budget ply with hb | hb | hb
        · rw [k1 hb] at hl
          cases hl
          exact Or.inl ⟨t, ⟨h1.rep, h1.sep, h1.unused⟩, h2⟩
        · rw [k2 hb] at hl
          cases hl
          have hnone : ∀ x, (if t.Has x then none else m.heap.mem x) = none := by
            intro x
            by_cases hx : t.Has x
            · rw [if_pos hx]
            · rw [if_neg hx]
              by_contra hc
              exact hx ((h2 x).mp hc)
          cases hr : m.root with
          | none =>
            exact Or.inl ⟨.null, ⟨by simp [TriPtrTree.Rep], trivial, fun x _ => hnone x⟩, fun x => by
              have := hnone x
              simp [TriPtrTree.Has, this]⟩
          | some a => exact Or.inr ⟨⟨a, rfl⟩, hnone⟩
        · obtain ⟨ok', m'', t', q1, q2, q3, q4, -⟩ := k3 hb
          rw [q1] at hl
          cases hl
          refine Or.inl ⟨t', q2, fun x => ⟨fun hx => ?_, has_mem t' q2.rep x⟩⟩
          by_contra hc
          apply hx
          rw [q4 x hc]
          by_cases ht : t.Has x
          · rw [if_pos ht]
          · rw [if_neg ht]
            by_contra hc
            exact ht ((h2 x).mp hc)
      · by_cases hb : m.heap.budget < ply
        · unfold FieldMem.load at hl
          dsimp only at hl
          rw [if_pos hb] at hl
          cases hl
          exact Or.inr ⟨⟨a, h1⟩, h2⟩
        · have := (C80_dangling m ⟨a, h1, h2 a⟩ grows fltMax fltMin demoTri 0 0 0).2.2 ply f reverse hf' (by omega)
          rw [this] at hl
          cases hl

/-- Such a history: the mesh of `demoPly` is loaded, and loaded again with one allocation too few; now the field is not usable. -/
example (grows : Nat → Bool) (ply : Nat) : ∃ m, FieldReach grows 1000000 1 m ∧ m.Dangling := by
  obtain ⟨half, pos, l, root, need, -, -, -, hall⟩ := C80_load grows 1000000 1 ply demoPly demoPly_sound false
  obtain ⟨-, -, k⟩ := hall ⟨none, ⟨fun _ => none, 0, ply + 1 + need⟩⟩ .null ⟨rfl, trivial, fun _ _ => rfl⟩
  obtain ⟨ok, m', t', h1, h2, h3, -, -⟩ := k (by dsimp only; omega)
  have r1 : FieldReach grows 1000000 1 m' := .load (.new _) ply _ (fun f hf => by cases hf; exact demoPly_sound) false ok h1
  obtain ⟨-, k2, -⟩ := hall ⟨m'.root, ⟨m'.heap.mem, m'.heap.next, ply⟩⟩ t' ⟨h2.rep, h2.sep, h2.unused⟩
  refine ⟨_, .load (.memory r1 ply) ply _ (fun f hf => by cases hf; exact demoPly_sound) false false (k2 rfl), ?_⟩
  obtain ⟨a, n, e1, e2, e3, -⟩ := owned_node h2 h3
  refine ⟨a, e1, if_pos ?_⟩
  cases t' with
  | null => exact absurd rfl h3
  | leaf c => obtain ⟨q, -⟩ := e3; exact Option.some.inj q
  | inner c => obtain ⟨q, -⟩ := e3; exact Or.inl (Option.some.inj q)

end
end Isomesh
