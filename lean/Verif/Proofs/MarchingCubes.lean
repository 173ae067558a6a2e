import Verif.Model.MarchingCubes
import Verif.Props.Filled
import Verif.Props.Tables
import Verif.Spec.Cube

/-! Helper lemmas for marching cubes. -/

set_option linter.unusedSectionVars false

namespace Isomesh
open Spec

/-! ### Slots of a cell -/

/-- Axis of cell edge `i`. -/
def slotAxis (i : Nat) : Axis := if i < 4 then .X else if i < 8 then .Y else .Z

/-- Offset of the lesser endpoint of cell edge `i`. -/
def slotOff (i : Nat) : IVec3 := cornerPos (edgeCorner i 0)

/-- Position of the cell having an edge as its slot `i` among the four cells around the edge. -/
def slotPos (i : Nat) : Nat := [2, 1, 3, 0, 2, 3, 1, 0, 2, 3, 1, 0].getD i 0

/-- Lattice edge in slot `i` of cell `P`. -/
def slotEdge (P : IVec3) (i : Nat) : LEdge := ⟨slotAxis i, shift P (slotOff i).x (slotOff i).y (slotOff i).z⟩

instance (h : Int) (c : IVec3) : Decidable (CellIn h c) := by unfold CellIn; infer_instance

theorem cellIn_iff {h : Int} {c : IVec3} : CellIn h c ↔ (-h ≤ c.x ∧ c.x < h ∧ -h ≤ c.y ∧ c.y < h ∧
      -h ≤ c.z ∧ c.z < h) := by
  simp only [CellIn, cellVertices, InCube, shift,
      List.mem_cons, List.not_mem_nil, or_false, forall_eq_or_imp, forall_eq]
  omega

/-- The `k`-th cell around an edge. -/
def aroundCell (D : Axis) (p : IVec3) (k : Nat) : IVec3 := (cellsAroundEdge D p).getD k default

theorem aroundCell_slot (i : Nat) (hi : i < 12) (P : IVec3) :
    aroundCell (slotAxis i) (slotEdge P i).at_ (slotPos i) = P := by
  obtain ⟨x, y, z⟩ := P
  interval_cases i <;> simp [aroundCell, slotAxis, slotPos, slotEdge, slotOff, edgeCorner, kCellEdgeEndpoint,
    cornerPos, cellsAroundEdge, shift]

theorem slot_aroundCell (i : Nat) (hi : i < 12) (p : IVec3) :
    slotEdge (aroundCell (slotAxis i) p (slotPos i)) i = ⟨slotAxis i, p⟩ := by
  obtain ⟨x, y, z⟩ := p
  interval_cases i <;> simp [aroundCell, slotAxis, slotPos, slotEdge, slotOff, edgeCorner, kCellEdgeEndpoint,
    cornerPos, cellsAroundEdge, shift]

theorem aroundCell_inj {D : Axis} {p q : IVec3} {k : Nat} (hk : k < 4) (h : aroundCell D p k = aroundCell D q k) :
    p = q := by
  obtain ⟨x, y, z⟩ := p
  obtain ⟨x', y', z'⟩ := q
  interval_cases k <;> cases D <;> simp [aroundCell, cellsAroundEdge, shift] at h ⊢ <;> omega

section
variable {K : Type} [Add K] [Sub K] [Mul K] [Div K] [Zero K] [IntCast K] [LE K] [LT K] [DecidableLE K] [DecidableLT K]

/-! ### Collecting -/

/-- Mesh vertex of an edge. -/
def mcVertex (nrm : Vec3 K → Vec3 K) (e : GridEdge K) : MeshVertex K := ⟨e.surfacePoint, nrm e.gradient, e.material⟩

/-- Entry for the `k`-th cell around an edge. -/
def entryOf (g : Grid K) (D : Axis) (k : Nat) (x : GridEdge K × Nat) : Option EdgeEntry :=
  if CellIn g.maxCoord (aroundCell D x.1.lesser k) then some ⟨g.vidx (aroundCell D x.1.lesser k), x.2⟩ else none

/-- All entries for the `k`-th cells. -/
def entriesOf (g : Grid K) (D : Axis) (k : Nat) (es : List (GridEdge K)) (n : Nat) : List EdgeEntry :=
  (es.zipIdx n).filterMap (entryOf g D k)

theorem Spec.Stored.collectStep_eq {g : Grid K} (h : Stored g) (nrm : Vec3 K → Vec3 K) {D : Axis} {e : GridEdge K}
    (he : e ∈ g.edges D) (s : CollectState K) (hn : s.mesh.vertices.length < 4294967295) :
    collectStep nrm g D s e = some ⟨⟨s.mesh.vertices ++ [mcVertex nrm e], s.mesh.indices⟩,
      s.l0 ++ (entryOf g D 0 (e, s.mesh.vertices.length)).toList,
      s.l1 ++ (entryOf g D 1 (e, s.mesh.vertices.length)).toList,
      s.l2 ++ (entryOf g D 2 (e, s.mesh.vertices.length)).toList,
      s.l3 ++ (entryOf g D 3 (e, s.mesh.vertices.length)).toList⟩ := by
  obtain ⟨c0, c1, c2, c3, e4, hf⟩ := adjacentCells_wf h.wf D e.lesser (h.edge_in _ _ he)
  have key : ∀ (l : List EdgeEntry) (i k : Nat),
      (CellIn g.maxCoord (aroundCell D e.lesser k) → g.pointToIndex (aroundCell D e.lesser k) = some i ∧ i ≠ kBadIndex)
      ∧ (¬ CellIn g.maxCoord (aroundCell D e.lesser k) → i = kBadIndex) →
      pushEntry l i s.mesh.vertices.length = l ++ (entryOf g D k (e, s.mesh.vertices.length)).toList := by
    intro l i k hk
    unfold pushEntry entryOf
    by_cases hc : CellIn g.maxCoord (aroundCell D e.lesser k)
    · obtain ⟨h1, h2⟩ := hk.1 hc
      obtain ⟨h3, h4⟩ := Grid.pointToIndex_some h.wf h1
      rw [if_pos h2, if_pos hc, h4]; rfl
    · simp [hc, hk.2 hc]
  unfold collectStep Mesh.addVertex GridEdge.lesserEndpoint
  rw [if_pos (by omega), e4]
  have hu : u32 ((s.mesh.vertices ++ [mcVertex nrm e]).length - 1) = s.mesh.vertices.length := by
    rw [u32_of_lt] <;> simp <;> omega
  unfold mcVertex at hu ⊢
  simp only [Option.bind_eq_bind, Option.bind_some, hu]
  have hD : cellsAroundEdge D e.lesser = [aroundCell D e.lesser 0, aroundCell D e.lesser 1, aroundCell D e.lesser 2,
      aroundCell D e.lesser 3] := by cases D <;> rfl
  rw [hD] at hf
  simp only [List.forall₂_cons, List.forall₂_nil_left_iff, and_true] at hf
  rw [key _ c0 0 hf.1, key _ c1 1 hf.2.1, key _ c2 2 hf.2.2.1, key _ c3 3 hf.2.2.2]

theorem Spec.Stored.collect_fold {g : Grid K} (h : Stored g) (nrm : Vec3 K → Vec3 K) {D : Axis} (es : List (GridEdge K))
    (he : ∀ e ∈ es, e ∈ g.edges D) (s : CollectState K) (hn : s.mesh.vertices.length + es.length < 4294967295) :
    es.foldlM (collectStep nrm g D) s = some ⟨⟨s.mesh.vertices ++ es.map (mcVertex nrm), s.mesh.indices⟩,
      s.l0 ++ entriesOf g D 0 es s.mesh.vertices.length, s.l1 ++ entriesOf g D 1 es s.mesh.vertices.length,
      s.l2 ++ entriesOf g D 2 es s.mesh.vertices.length, s.l3 ++ entriesOf g D 3 es s.mesh.vertices.length⟩ := by
  induction es generalizing s with
  | nil => simp [entriesOf]
  | cons e es ih =>
    simp only [List.length_cons] at hn
    rw [List.foldlM_cons, Stored.collectStep_eq h nrm (he e List.mem_cons_self) s (by omega)]
    simp only [Option.bind_eq_bind, Option.bind_some]
    rw [ih (fun e h => he e (List.mem_cons_of_mem _ h)) _ (by simp; omega)]
    have hc : ∀ (l : List EdgeEntry) (k : Nat), l ++ (entryOf g D k (e, s.mesh.vertices.length)).toList ++
        entriesOf g D k es (s.mesh.vertices.length + 1) = l ++ entriesOf g D k (e :: es) s.mesh.vertices.length := by
      intro l k
      unfold entriesOf
      rw [List.zipIdx_cons, List.filterMap_cons]
      cases entryOf g D k (e, s.mesh.vertices.length) <;> simp
    simp only [List.length_append, List.length_singleton, hc, List.map_cons, List.append_assoc,
      List.singleton_append]

/-! ### The merge loop -/

theorem min_fold_le (its : List (List EdgeEntry)) (b : Nat) :
    its.foldl minStep b ≤ b ∧
    ∀ l ∈ its, ∀ e, l.head? = some e → its.foldl minStep b ≤ e.cellIndex := by
  induction its generalizing b with
  | nil => simp
  | cons l its ih =>
    simp only [List.foldl_cons]
    refine ⟨?_, ?_⟩
    · refine (ih _).1.trans ?_
      cases l <;> simp [minStep]
    · intro l' hl' e he
      rcases List.mem_cons.1 hl' with rfl | hl'
      · refine (ih _).1.trans ?_
        cases l' with
        | nil => simp at he
        | cons a l' => simp at he; subst he; simp [minStep]
      · exact (ih _).2 l' hl' e he

theorem min_fold_attained (its : List (List EdgeEntry)) (b : Nat) :
    its.foldl minStep b = b ∨
    ∃ l ∈ its, ∃ e, l.head? = some e ∧ its.foldl minStep b = e.cellIndex := by
  induction its generalizing b with
  | nil => simp
  | cons l its ih =>
    simp only [List.foldl_cons]
    rcases ih (minStep b l) with h | ⟨l', hl', e, he, h⟩
    · rw [h]
      cases l with
      | nil => left; rfl
      | cons a l =>
        simp only [minStep]
        rcases min_choice b a.cellIndex with h' | h'
        · left; exact h'
        · right; exact ⟨_, List.mem_cons_self, a, rfl, h'⟩
    · right; exact ⟨l', List.mem_cons_of_mem _ hl', e, he, h⟩

theorem minUnprocessed_eq {its : List (List EdgeEntry)} {c : Nat} (hc : c ≤ kBadIndex)
    (hle : ∀ l ∈ its, ∀ e, l.head? = some e → c ≤ e.cellIndex)
    (hex : c = kBadIndex ∨ ∃ l ∈ its, ∃ e, l.head? = some e ∧ e.cellIndex = c) : minUnprocessed its = c := by
  unfold minUnprocessed
  apply le_antisymm
  · rcases hex with rfl | ⟨l, hl, e, he, rfl⟩
    · exact (min_fold_le its _).1
    · exact (min_fold_le its _).2 l hl e he
  · rcases min_fold_attained its kBadIndex with h | ⟨l, hl, e, he, h⟩
    · rw [h]; exact hc
    · rw [h]; exact hle l hl e he

/-- Entries of slot `i` for the cells `cs`. -/
def slotEntries {α : Type} (F : α → Nat → Option Nat) (key : α → Nat) (cs : List α) (i : Nat) : List EdgeEntry :=
  cs.filterMap fun c => (F c i).map (EdgeEntry.mk (key c))

theorem mem_slotEntries {α : Type} {F : α → Nat → Option Nat} {key : α → Nat} {cs : List α} {i : Nat} {e : EdgeEntry} :
    e ∈ slotEntries F key cs i ↔ ∃ c ∈ cs, key c = e.cellIndex ∧ F c i = some e.vertexIndex := by
  unfold slotEntries
  simp only [List.mem_filterMap, Option.map_eq_some_iff]
  constructor
  · rintro ⟨c, hc, v, hv, rfl⟩; exact ⟨c, hc, rfl, hv⟩
  · rintro ⟨c, hc, h1, h2⟩; exact ⟨c, hc, _, h2, by cases e; simp_all⟩

theorem slotEntries_sorted {α : Type} {F : α → Nat → Option Nat} {key : α → Nat} {cs : List α} {i : Nat}
    (hs : cs.Pairwise (fun a b => key a < key b)) :
    (slotEntries F key cs i).Pairwise (fun a b => a.cellIndex < b.cellIndex) := by
  unfold slotEntries
  rw [List.pairwise_filterMap]
  refine hs.imp ?_
  intro a b hab x hx y hy
  simp only [Option.map_eq_some_iff] at hx hy
  obtain ⟨v, -, rfl⟩ := hx
  obtain ⟨w, -, rfl⟩ := hy
  exact hab

theorem mcLoop_eq {α : Type} (g : Grid K) (F : α → Nat → Option Nat) (key : α → Nat) (cs : List α)
    (hs : cs.Pairwise (fun a b => key a < key b)) (hlt : ∀ c ∈ cs, key c < kBadIndex)
    (hne : ∀ c ∈ cs, ∃ i < 12, (F c i).isSome) (mesh : Mesh K) :
    mcLoop g ((List.range 12).map (slotEntries F key cs)) mesh =
      cs.foldlM (fun mesh c => processCell g (key c) ((List.range 12).map (F c)) mesh) mesh := by
  induction cs generalizing mesh with
  | nil =>
    rw [mcLoop, minUnprocessed_eq (c := kBadIndex) le_rfl ?_ (Or.inl rfl)]
    · simp
    · intro l hl e he
      simp only [List.mem_map] at hl
      obtain ⟨i, -, rfl⟩ := hl
      simp [slotEntries] at he
  | cons c cs ih =>
    have hc := hlt c List.mem_cons_self
    obtain ⟨hs1, hs2⟩ := List.pairwise_cons.1 hs
    have hmin : minUnprocessed ((List.range 12).map (slotEntries F key (c :: cs))) = key c := by
      apply minUnprocessed_eq hc.le
      · intro l hl e he
        simp only [List.mem_map] at hl
        obtain ⟨i, -, rfl⟩ := hl
        obtain ⟨c', hc', h1, -⟩ := mem_slotEntries.1 (List.mem_of_mem_head? he)
        rw [← h1]
        rcases List.mem_cons.1 hc' with rfl | hc'
        · exact le_rfl
        · exact (hs1 c' hc').le
      · right
        obtain ⟨i, hi, hF⟩ := hne c List.mem_cons_self
        obtain ⟨v, hv⟩ := Option.isSome_iff_exists.1 hF
        refine ⟨_, List.mem_map.2 ⟨i, List.mem_range.2 hi, rfl⟩, ⟨key c, v⟩, ?_, rfl⟩
        simp [slotEntries, hv]
    have htake : ∀ i, takeEntry (key c) (slotEntries F key (c :: cs) i) = (F c i, slotEntries F key cs i) := by
      intro i
      cases hF : F c i with
      | some v => simp [slotEntries, hF, takeEntry]
      | none =>
        have h1 : slotEntries F key (c :: cs) i = slotEntries F key cs i := by simp [slotEntries, hF]
        rw [h1]
        cases hl : slotEntries F key cs i with
        | nil => rfl
        | cons e l =>
          have : e ∈ slotEntries F key cs i := by rw [hl]; exact List.mem_cons_self
          obtain ⟨c', hc', h1, -⟩ := mem_slotEntries.1 this
          have := hs1 c' hc'
          have hne : ¬ e.cellIndex = key c := by omega
          simp [takeEntry, hne]
    rw [mcLoop]
    rw [hmin, if_neg (by omega)]
    simp only [List.map_map]
    have e1 : ((fun it => (takeEntry (key c) it).1) ∘ slotEntries F key (c :: cs)) = F c := by
      funext i; simp [htake]
    have e2 : ((fun it => (takeEntry (key c) it).2) ∘ slotEntries F key (c :: cs)) = slotEntries F key cs := by
      funext i; simp [htake]
    rw [e1, e2, List.foldlM_cons]
    congr 1
    funext mesh'
    exact ih hs2 (fun c h => hlt c (List.mem_cons_of_mem _ h)) (fun c h => hne c (List.mem_cons_of_mem _ h)) mesh'

/-! ### Sorting -/

theorem sortEntries_eq {l l' : List EdgeEntry} (hl : l.Pairwise (fun a b => a.cellIndex ≠ b.cellIndex))
    (hl' : l'.Pairwise (fun a b => a.cellIndex < b.cellIndex)) (hm : ∀ e, e ∈ l ↔ e ∈ l') : sortEntries l = l' := by
  have hp : (sortEntries l).Perm l := List.mergeSort_perm _ _
  have hsort : (sortEntries l).Pairwise (fun a b => decide (a.cellIndex ≤ b.cellIndex) = true) :=
    List.pairwise_mergeSort (by intro a b c h1 h2; simp at *; omega) (by intro a b; simp; omega) l
  have hnd : (sortEntries l).Pairwise (fun a b => a.cellIndex ≠ b.cellIndex) :=
    (hp.pairwise_iff (fun h => h.symm)).2 hl
  have hlt : (sortEntries l).Pairwise (fun a b => a.cellIndex < b.cellIndex) := by
    refine (hsort.and hnd).imp ?_
    rintro a b ⟨h1, h2⟩
    simp at h1; omega
  have hperm : (sortEntries l).Perm l' := by
    rw [List.perm_ext_iff_of_nodup]
    · intro e; rw [hp.mem_iff, hm]
    · exact hlt.imp (fun h he => by subst he; omega)
    · exact hl'.imp (fun h he => by subst he; omega)
  exact hperm.eq_of_pairwise (fun a b _ _ h1 h2 => absurd h1 (by omega)) hlt hl'

end
end Isomesh
