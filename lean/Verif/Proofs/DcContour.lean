import Verif.Proofs.DcTree
import Verif.Props.Octree

/-! `DC_Octree::contour` on a tree that satisfies `TreeOK`. -/

namespace Isomesh
open Spec

set_option linter.unusedSectionVars false
variable {K : Type} [Add K] [_root_.Sub K] [Mul K] [Div K] [Neg K] [Zero K] [One K] [OfNat K 2] [OfScientific K] [NatCast K] [IntCast K]
  [Fabs K] [Elem K] [LinearOrder K] [RoundedLaws K]

/-! ### Shapes -/

section
variable {N L N' L' : Type}

theorem leaves_locate (t : Oct N L) (c : Cube) : (locate t c).leaves.map (·.2) = t.leaves := by
  have := leaves_map (fun d : N => d) (Prod.snd : Cube × L → L) (locate t c)
  rw [← this]
  congr 1
  exact locate_map t c

theorem locate_map_comm (f : N → N') (h : L → L') (t : Oct N L) (c : Cube) :
    locate (t.map f h) c = (locate t c).map f (fun x => (x.1, h x.2)) := by
  induction t generalizing c with
  | leaf d => rfl
  | inner d ch ih =>
    simp only [Oct.map, locate, Oct.inner.injEq, true_and]
    funext i
    exact ih i _

theorem leafCubes_map (f : N → N') (h : L → L') (t : Oct N L) (c : Cube) : leafCubes (t.map f h) c = leafCubes t c := by
  unfold leafCubes
  rw [locate_map_comm, leaves_map, List.map_map]
  rfl

theorem height_map (f : N → N') (h : L → L') (t : Oct N L) : (t.map f h).height = t.height := by
  induction t with
  | leaf d => rfl
  | inner d ch ih => simp only [Oct.map, Oct.height, ih]

theorem leafCubes_nodup {t : Oct N (Cube × L)} : ∀ {c : Cube}, Placed t c → (t.leaves.map (·.1)).Nodup := by
  induction t with
  | leaf d => intro c _; simp [Oct.leaves]
  | inner d ch ih =>
    intro c hp
    obtain ⟨hk, hp⟩ := hp
    obtain ⟨lo, k⟩ := c
    obtain ⟨k, rfl⟩ := Nat.exists_eq_succ_of_ne_zero (Nat.pos_iff_ne_zero.1 hk)
    rw [Oct.leaves, map_flatMap', List.nodup_flatMap]
    refine ⟨fun i _ => ih i (hp i), ?_⟩
    refine (List.nodup_finRange 8).imp ?_
    intro i j hij
    rw [Function.onFun, List.disjoint_left]
    intro a h1 h2
    obtain ⟨l, hl, rfl⟩ := List.mem_map.1 h1
    obtain ⟨l', hl', he⟩ := List.mem_map.1 h2
    have s1 := leaf_sub (hp i) l hl
    have s2 := leaf_sub (hp j) l' hl'
    have hu : l.1.Has l.1.lo := by
      rw [cubeHas_iff]; intro a; have := side_pos l.1; omega
    exact hij (octant_unique (cubeSub_has s1 hu) (cubeSub_has s2 (he ▸ hu)))

theorem leaves_length (t : Oct N L) : t.leaves.length ≤ 8 ^ t.height := by
  induction t with
  | leaf d => simp [Oct.leaves, Oct.height]
  | inner d ch ih =>
    rw [Oct.leaves, List.length_flatMap, Oct.height, pow_succ, mul_comm]
    have : ∀ i ∈ List.finRange 8, (ch i).leaves.length ≤ 8 ^ (Finset.univ.sup fun i => (ch i).height) := by
      intro i _
      refine (ih i).trans (Nat.pow_le_pow_right (by norm_num) ?_)
      exact Finset.le_sup (f := fun i => (ch i).height) (Finset.mem_univ i)
    have h8 := List.sum_le_card_nsmul ((List.finRange 8).map fun i => (ch i).leaves.length) _ (by
      intro x hx; obtain ⟨i, hi, rfl⟩ := List.mem_map.1 hx; exact this i hi)
    simpa using h8

end

/-! ### Facts on the leaves of a tree -/

theorem treeOK_height {g : Grid K} {t : DcNode K} : ∀ {c : Cube} {depth : Nat}, TreeOK g t c depth → t.height ≤ c.k := by
  induction t with
  | leaf l => intro c depth _; simp [Oct.height]
  | inner d ch ih =>
    intro c depth h
    obtain ⟨hk, -, h⟩ := h
    simp only [Oct.height]
    have : (Finset.univ.sup fun i => (ch i).height) ≤ c.k - 1 := Finset.sup_le fun i _ => ih i (h i)
    omega

theorem treeOK_leaf {g : Grid K} {t : DcNode K} : ∀ {c : Cube} {depth : Nat}, TreeOK g t c depth → ∀ x ∈ (locate t c).leaves,
    LeafOK g x.1 x.2 ∧ x.2.depth + x.1.k = depth + c.k := by
  induction t with
  | leaf l =>
    intro c depth h x hx
    simp only [locate, Oct.leaves, List.mem_singleton] at hx
    subst hx
    exact ⟨h.1, by rw [h.2]⟩
  | inner d ch ih =>
    intro c depth h x hx
    obtain ⟨hk, -, h⟩ := h
    obtain ⟨i, -, hx⟩ := List.mem_flatMap.1 hx
    obtain ⟨a, b⟩ := ih i (h i) x hx
    refine ⟨a, ?_⟩
    rw [b]
    simp only [Cube.octant]
    omega

/-! ### `makeVertices` -/

/-- The leaves with their vertex numbers. -/
def assignIds : Nat → List (DcLeaf K) → List (DcLeaf K)
  | _, [] => []
  | n, l :: ls => { l with vertexId := some (if l.homogeneous then kBadIndex else n) } ::
      assignIds (if l.homogeneous then n else n + 1) ls

/-- The crossed leaves. -/
def crossedLeaves (ls : List (DcLeaf K)) : List (DcLeaf K) := ls.filter fun l => !l.homogeneous

theorem assignIds_append (n : Nat) (a b : List (DcLeaf K)) :
    assignIds n (a ++ b) = assignIds n a ++ assignIds (n + (crossedLeaves a).length) b := by
  induction a generalizing n with
  | nil => simp [assignIds, crossedLeaves]
  | cons l a ih =>
    simp only [List.cons_append, assignIds, ih]
    unfold crossedLeaves
    cases h : l.homogeneous <;> simp [h, Nat.add_assoc, Nat.add_comm 1]

/-- The tree without vertex numbers. -/
def DcLeaf.bare (l : DcLeaf K) : DcLeaf K := { l with vertexId := none }

/-- The mesh vertex made for a crossed leaf. -/
def LeafVertex (l : DcLeaf K) (v : MeshVertex K) : Prop :=
  ∃ d, l.dual = some d ∧ v = ⟨d.vertex, d.normal, (FilterFast.new.addMany (List.ofFn l.corners)).select⟩

theorem dcMakeVertices_eq (t : DcNode K) (mesh : Mesh K) (hd : ∀ l ∈ t.leaves, l.homogeneous = false → ∃ d, l.dual = some d)
    (hn : mesh.vertices.length + t.leaves.length ≤ 4294967295) :
    ∃ vs t', dcMakeVertices t mesh = some (⟨mesh.vertices ++ vs, mesh.indices⟩, t') ∧
      t'.leaves = assignIds mesh.vertices.length t.leaves ∧ t'.map id DcLeaf.bare = t.map id DcLeaf.bare ∧
      List.Forall₂ LeafVertex (crossedLeaves t.leaves) vs := by
  induction t generalizing mesh with
  | leaf l =>
    simp only [Oct.leaves, List.length_singleton, List.mem_singleton, forall_eq] at hd hn
    rw [dcMakeVertices]
    by_cases hh : l.homogeneous = true
    · rw [if_pos hh]
      refine ⟨[], .leaf { l with vertexId := some kBadIndex }, by rw [List.append_nil], ?_, rfl, ?_⟩
      · simp [Oct.leaves, assignIds, hh]
      · simp [crossedLeaves, Oct.leaves, hh]
    · rw [if_neg hh]
      obtain ⟨d, hd⟩ := hd (by simpa using hh)
      simp only [hd, Mesh.addVertex]
      rw [if_pos (by omega)]
      refine ⟨[_], _, rfl, ?_, by simp only [Oct.map, DcLeaf.bare, hd], ?_⟩
      · simp only [Oct.leaves, assignIds, List.length_append, List.length_singleton, Nat.add_sub_cancel]
        rw [if_neg hh, u32, Nat.mod_eq_of_lt (by omega), hd]
      · simp only [crossedLeaves, Oct.leaves, List.filter_cons, hh, Bool.not_false, if_true, List.filter_nil]
        exact List.Forall₂.cons ⟨d, hd, rfl⟩ List.Forall₂.nil
  | inner d ch ih =>
    have key : ∀ (n : Nat) (f : Fin n → DcNode K) (mesh : Mesh K),
        (∀ i (mesh : Mesh K), mesh.vertices.length + (f i).leaves.length ≤ 4294967295 →
          ∃ vs t', dcMakeVertices (f i) mesh = some (⟨mesh.vertices ++ vs, mesh.indices⟩, t') ∧
          t'.leaves = assignIds mesh.vertices.length (f i).leaves ∧ t'.map id DcLeaf.bare = (f i).map id DcLeaf.bare ∧
          List.Forall₂ LeafVertex (crossedLeaves (f i).leaves) vs) →
        mesh.vertices.length + ((List.finRange n).flatMap fun i => (f i).leaves).length ≤ 4294967295 →
        ∃ vs r, threadM n (fun i mesh => dcMakeVertices (f i) mesh) mesh = some (⟨mesh.vertices ++ vs, mesh.indices⟩, r) ∧
          ((List.finRange n).flatMap fun i => (r i).leaves) =
            assignIds mesh.vertices.length ((List.finRange n).flatMap fun i => (f i).leaves) ∧
          (∀ i, (r i).map id DcLeaf.bare = (f i).map id DcLeaf.bare) ∧
          List.Forall₂ LeafVertex (crossedLeaves ((List.finRange n).flatMap fun i => (f i).leaves)) vs := by
      intro n
      induction n with
      | zero =>
        intro f mesh _ _
        exact ⟨[], fun i => i.elim0, by simp [threadM], by simp [assignIds], fun i => i.elim0, by simp [crossedLeaves]⟩
      | succ n ihn =>
        intro f mesh hf hb
        rw [List.finRange_succ, List.flatMap_cons, List.flatMap_map, List.length_append] at hb
        obtain ⟨vs1, t1, a1, a2, a3, a4⟩ := hf 0 mesh (by omega)
        have hlen : vs1.length = (crossedLeaves (f 0).leaves).length := a4.length_eq.symm
        have hle : (crossedLeaves (f 0).leaves).length ≤ (f 0).leaves.length := List.length_filter_le _ _
        obtain ⟨vs2, r, b1, b2, b3, b4⟩ := ihn (fun i => f i.succ) ⟨mesh.vertices ++ vs1, mesh.indices⟩
          (fun i => hf i.succ) (by simp only [List.length_append]; omega)
        refine ⟨vs1 ++ vs2, Fin.cons (α := fun _ => (DcNode K)) t1 r, ?_, ?_, ?_, ?_⟩
        · rw [threadM]
          simp only [a1, b1, List.append_assoc]
        · rw [List.finRange_succ, List.flatMap_cons, List.flatMap_map, List.flatMap_cons, List.flatMap_map, assignIds_append,
            Fin.cons_zero, a2, ← hlen]
          congr 1
          simp only [Fin.cons_succ]
          rw [b2, List.length_append]
        · intro i
          refine Fin.cases ?_ (fun i => ?_) i
          · exact a3
          · exact b3 i
        · rw [List.finRange_succ, List.flatMap_cons, List.flatMap_map, crossedLeaves, List.filter_append]
          exact List.rel_append a4 b4
    obtain ⟨vs, r, a1, a2, a3, a4⟩ := key 8 ch mesh
      (fun i mesh hb => ih i mesh (fun l hl => hd l (List.mem_flatMap.2 ⟨i, List.mem_finRange i, hl⟩)) hb) hn
    refine ⟨vs, .inner d r, ?_, a2, ?_, a4⟩
    · rw [dcMakeVertices]
      simp only [a1]
    · simp only [Oct.map, Oct.inner.injEq, true_and, id]
      funext i
      exact a3 i

/-- Vertex numbers in terms of the cubes of the crossed leaves. -/
theorem assigned_id (n : Nat) (L' : List (Cube × DcLeaf K)) (ls : List (DcLeaf K)) (h : L'.map (·.2) = assignIds n ls)
    (hnd : (L'.map (·.1)).Nodup) :
    ∀ x ∈ L', x.2.homogeneous = false →
      x.1 ∈ (L'.filter fun x => !x.2.homogeneous).map (·.1) ∧
      x.2.vertexId = some (n + ((L'.filter fun x => !x.2.homogeneous).map (·.1)).idxOf x.1) := by
  induction L' generalizing n ls with
  | nil => intro x hx; cases hx
  | cons y L' ih =>
    cases ls with
    | nil => cases h
    | cons l ls =>
      simp only [List.map_cons, assignIds, List.cons.injEq] at h
      obtain ⟨hy, h⟩ := h
      rw [List.map_cons, List.nodup_cons] at hnd
      obtain ⟨hny, hnd⟩ := hnd
      have hyh : y.2.homogeneous = l.homogeneous := by rw [hy]; rfl
      intro x hx hxh
      rcases List.mem_cons.1 hx with rfl | hx
      · rw [hyh] at hxh
        have hxf : (!x.2.homogeneous) = true := by rw [hyh, hxh]; rfl
        rw [List.filter_cons, if_pos hxf, List.map_cons]
        refine ⟨List.mem_cons_self, ?_⟩
        rw [List.idxOf_cons_self, hy]
        simp [hxh]
      · have hne : y.1 ≠ x.1 := fun e => hny (e ▸ List.mem_map_of_mem hx)
        by_cases hl : l.homogeneous = true
        · rw [if_pos hl] at h
          rw [List.filter_cons, if_neg (by rw [hyh, hl]; simp)]
          exact ih n ls h hnd x hx hxh
        · rw [if_neg hl] at h
          obtain ⟨h1, h2⟩ := ih (n + 1) ls h hnd x hx hxh
          have hyf : (!y.2.homogeneous) = true := by rw [hyh]; simpa using hl
          rw [List.filter_cons, if_pos hyf, List.map_cons]
          refine ⟨List.mem_cons_of_mem _ h1, ?_⟩
          rw [h2, List.idxOf_cons_ne _ hne]
          congr 1
          omega

end Isomesh
