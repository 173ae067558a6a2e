import Mathlib.Data.Finset.Lattice.Fold
import Mathlib.Data.Fin.VecNotation
import Mathlib.Data.Fintype.Basic
import Mathlib.Data.List.FinRange
import Verif.Basic
import Verif.Model.Tables

/-! Model of the octree traversals that are common to the three octrees: `cellProc`, `faceProc`, `edgeProc` of
src/data/dc_octree.cpp:44-276 and src/data/mdc_octree.cpp:69-140 (the clustering functions
src/data/mdc_octree.cpp:183-256 have the same text), and `cellProc`, `faceProc*`, `edgeProc*`, `vertProc` of
src/data/dmc_octree.cpp:59-349.

The C++ functions pass a mesh (or other objects) by reference to the innermost routine.  Here a traversal returns the
list of the calls of the innermost routine in the order in which they are made; the callers fold the routine over this
list.  `assert (node)` and the null checks are dropped: a child of a subdivided node is never null. -/

namespace Isomesh

/-- An octree node with its subtree: a leaf with data `L` or a subdivided node with data `N` and eight children
(dc_octree_node.hpp:17-42, mdc_octree_node.hpp:35-67, dmc_octree_node.hpp:14-30). -/
inductive Oct (N L : Type) where
  | leaf (d : L)
  | inner (d : N) (ch : Fin 8 → Oct N L)

namespace Oct
variable {N L : Type}

/-- `!isSubdivided ()`. -/
def isLeaf : Oct N L → Bool
  | leaf _ => true
  | inner _ _ => false

/-- `n->isSubdivided () ? n->children[i] : n`, as in the loops that fill `sub` (e.g. dc_octree.cpp:82-89). -/
def sub : Oct N L → Fin 8 → Oct N L
  | leaf d, _ => leaf d
  | inner _ ch, i => ch i

/-- Height of the tree (termination measure only). -/
def height : Oct N L → Nat
  | leaf _ => 0
  | inner _ ch => (Finset.univ.sup fun i => (ch i).height) + 1

/-- The leaves of the tree in child order. -/
def leaves : Oct N L → List L
  | leaf d => [d]
  | inner _ ch => (List.finRange 8).flatMap fun i => (ch i).leaves

/-- Applies functions to the data of all nodes. -/
def map {N' L' : Type} (f : N → N') (g : L → L') : Oct N L → Oct N' L'
  | leaf d => leaf (g d)
  | inner d ch => inner (f d) fun i => (ch i).map f g

theorem height_sub_le (n : Oct N L) (i : Fin 8) : (n.sub i).height ≤ n.height - 1 := by
  cases n with
  | leaf d => simp [sub, height]
  | inner d ch =>
    simp only [sub, height, Nat.add_sub_cancel]
    exact Finset.le_sup (f := fun i => (ch i).height) (Finset.mem_univ i)

theorem height_pos {n : Oct N L} (h : n.isLeaf = false) : 0 < n.height := by
  cases n with
  | leaf d => cases h
  | inner d ch => simp [height]

end Oct

/-- Largest height in a tuple of nodes (termination measure only). -/
def maxHeight {N L : Type} {n : Nat} (nodes : Fin n → Oct N L) : Nat := Finset.univ.sup fun i => (nodes i).height

theorem le_maxHeight {N L : Type} {n : Nat} (nodes : Fin n → Oct N L) (i : Fin n) : (nodes i).height ≤ maxHeight nodes :=
  Finset.le_sup (f := fun i => (nodes i).height) (Finset.mem_univ i)

theorem maxHeight_lt {N L : Type} {n n' m : Nat} {nodes : Fin n → Oct N L} (src : Fin m → Fin n) (ch : Fin m → Fin 8)
    (h : ¬ ∀ j, (nodes (src j)).isLeaf = true) (pick : Fin n' → Fin m) :
    maxHeight (fun i => (nodes (src (pick i))).sub (ch (pick i))) < maxHeight nodes := by
  obtain ⟨j, hj⟩ := not_forall.1 h
  have hp := Oct.height_pos (Bool.eq_false_iff.2 hj)
  have := le_maxHeight nodes (src j)
  have hle : maxHeight (fun i => (nodes (src (pick i))).sub (ch (pick i))) ≤ maxHeight nodes - 1 := by
    apply Finset.sup_le
    intro i _
    have h1 := Oct.height_sub_le (nodes (src (pick i))) (ch (pick i))
    have h2 := le_maxHeight nodes (src (pick i))
    show ((nodes (src (pick i))).sub (ch (pick i))).height ≤ _
    omega
  omega

/-- One call made by `cellProc` for its block of eight children. -/
inductive CellStep where
  | face (D : Axis) (i : Fin 4)
  | edge (D : Axis) (i : Fin 2)
  deriving DecidableEq

/-- The tables and the call order of a traversal. -/
structure Trav where
  /-- `subTable` of `edgeProc`: parent (in `edgeProc` numbering) and its child. -/
  edgeChild : Axis → Fin 8 → Fin 4 × Fin 8
  /-- `edgeTable`: quadruples of the block sharing an edge. -/
  edgeCall : Axis → Fin 2 → Fin 4 → Fin 8
  /-- `subTable` of `faceProc`. -/
  faceChild : Axis → Fin 8 → Fin 2 × Fin 8
  /-- `faceTable`: pairs of the block sharing a face. -/
  faceCall : Axis → Fin 4 → Fin 2 → Fin 8
  /-- The axes for which `faceProc` calls `edgeProc`, in order. -/
  faceEdges : Axis → List Axis
  /-- The calls of `cellProc` after the recursive calls, in order. -/
  cellSteps : List CellStep

section
variable {N L : Type}

/-- The block `sub` of `edgeProc` (dc_octree.cpp:80-89, mdc_octree.cpp:87-96, dmc_octree.cpp:123-132). -/
def Trav.edgeBlock (T : Trav) (D : Axis) (nodes : Fin 4 → Oct N L) (j : Fin 8) : Oct N L :=
  (nodes (T.edgeChild D j).1).sub (T.edgeChild D j).2

/-- The block `sub` of `faceProc` (dc_octree.cpp:143-152, mdc_octree.cpp:106-115, dmc_octree.cpp:211-220). -/
def Trav.faceBlock (T : Trav) (D : Axis) (nodes : Fin 2 → Oct N L) (j : Fin 8) : Oct N L :=
  (nodes (T.faceChild D j).1).sub (T.faceChild D j).2

/-- `edgeProc<D>` (dc_octree.cpp:55-99, mdc_octree.cpp:85-102): the list of the quadruples of leaves reached. -/
def Trav.edgeProc (T : Trav) (D : Axis) (nodes : Fin 4 → Oct N L) : List (Axis × (Fin 4 → Oct N L)) :=
  if _h : ∀ j : Fin 8, (nodes (T.edgeChild D j).1).isLeaf = true then [(D, nodes)]
  else (List.finRange 2).flatMap fun i => T.edgeProc D fun k => T.edgeBlock D nodes (T.edgeCall D i k)
termination_by maxHeight nodes
decreasing_by exact maxHeight_lt (fun j => (T.edgeChild D j).1) (fun j => (T.edgeChild D j).2) _h (T.edgeCall D i)

/-- `faceProc<D>` (dc_octree.cpp:137-252, mdc_octree.cpp:104-123). -/
def Trav.faceProc (T : Trav) (D : Axis) (nodes : Fin 2 → Oct N L) : List (Axis × (Fin 4 → Oct N L)) :=
  if _h : ∀ j : Fin 8, (nodes (T.faceChild D j).1).isLeaf = true then []
  else
    ((List.finRange 4).flatMap fun i => T.faceProc D fun k => T.faceBlock D nodes (T.faceCall D i k)) ++
    ((T.faceEdges D).flatMap fun D' => (List.finRange 2).flatMap fun i =>
      T.edgeProc D' fun k => T.faceBlock D nodes (T.edgeCall D' i k))
termination_by maxHeight nodes
decreasing_by exact maxHeight_lt (fun j => (T.faceChild D j).1) (fun j => (T.faceChild D j).2) _h (T.faceCall D i)

/-- One face or edge call of `cellProc` on its block. -/
def Trav.cellStep (T : Trav) (b : Fin 8 → Oct N L) : CellStep → List (Axis × (Fin 4 → Oct N L))
  | .face D i => T.faceProc D fun k => b (T.faceCall D i k)
  | .edge D i => T.edgeProc D fun k => b (T.edgeCall D i k)

/-- The face and edge calls of `cellProc` (dc_octree.cpp:263-275, mdc_octree.cpp:134-139); also the calls of
`clusterCell` for one node (mdc_octree.cpp:252-257). -/
def Trav.cellCalls (T : Trav) (b : Fin 8 → Oct N L) : List (Axis × (Fin 4 → Oct N L)) := T.cellSteps.flatMap (T.cellStep b)

/-- `cellProc` (dc_octree.cpp:254-276, mdc_octree.cpp:125-140). -/
def Trav.cellProc (T : Trav) : Oct N L → List (Axis × (Fin 4 → Oct N L))
  | .leaf _ => []
  | .inner _ ch => ((List.finRange 8).flatMap fun i => Trav.cellProc T (ch i)) ++ T.cellCalls ch

/-! ### The dual marching cubes variant -/

/-- `vertProc` up to the leaves (dmc_octree.cpp:59-75): the tuple of eight leaves around the vertex. -/
def vertProc (nodes : Fin 8 → Oct N L) : List (Fin 8 → Oct N L) :=
  if _h : ∀ j : Fin 8, (nodes j).isLeaf = true then [nodes]
  else vertProc fun i => (nodes i).sub (7 - i)
termination_by maxHeight nodes
decreasing_by exact maxHeight_lt (src := id) (ch := fun i => 7 - i) _h id

/-- `edgeProcX`, `edgeProcY`, `edgeProcZ` (dmc_octree.cpp:117-199). -/
def Trav.edgeProcV (T : Trav) (D : Axis) (nodes : Fin 4 → Oct N L) : List (Fin 8 → Oct N L) :=
  if _h : ∀ j : Fin 8, (nodes (T.edgeChild D j).1).isLeaf = true then []
  else
    ((List.finRange 2).flatMap fun i => T.edgeProcV D fun k => T.edgeBlock D nodes (T.edgeCall D i k)) ++
    vertProc (T.edgeBlock D nodes)
termination_by maxHeight nodes
decreasing_by exact maxHeight_lt (fun j => (T.edgeChild D j).1) (fun j => (T.edgeChild D j).2) _h (T.edgeCall D i)

/-- `faceProcX`, `faceProcY`, `faceProcZ` (dmc_octree.cpp:205-324). -/
def Trav.faceProcV (T : Trav) (D : Axis) (nodes : Fin 2 → Oct N L) : List (Fin 8 → Oct N L) :=
  if _h : ∀ j : Fin 8, (nodes (T.faceChild D j).1).isLeaf = true then []
  else
    ((List.finRange 4).flatMap fun i => T.faceProcV D fun k => T.faceBlock D nodes (T.faceCall D i k)) ++
    ((T.faceEdges D).flatMap fun D' => (List.finRange 2).flatMap fun i =>
      T.edgeProcV D' fun k => T.faceBlock D nodes (T.edgeCall D' i k)) ++
    vertProc (T.faceBlock D nodes)
termination_by maxHeight nodes
decreasing_by exact maxHeight_lt (fun j => (T.faceChild D j).1) (fun j => (T.faceChild D j).2) _h (T.faceCall D i)

/-- One face or edge call of `cellProc` on its block. -/
def Trav.cellStepV (T : Trav) (b : Fin 8 → Oct N L) : CellStep → List (Fin 8 → Oct N L)
  | .face D i => T.faceProcV D fun k => b (T.faceCall D i k)
  | .edge D i => T.edgeProcV D fun k => b (T.edgeCall D i k)

/-- `cellProc` (dmc_octree.cpp:326-349). -/
def Trav.cellProcV (T : Trav) : Oct N L → List (Fin 8 → Oct N L)
  | .leaf _ => []
  | .inner _ ch =>
    ((List.finRange 8).flatMap fun i => Trav.cellProcV T (ch i)) ++ T.cellSteps.flatMap (T.cellStepV ch) ++ vertProc ch

end

/-! ### The tables -/

/-- `edgeTable` (dc_octree.cpp:49-53; `edgeTableX`, `edgeTableY`, `edgeTableZ`, dmc_octree.cpp:113-115). -/
def dcEdgeTable : Axis → Fin 2 → Fin 4 → Fin 8
  | .X => ![![0, 4, 5, 1], ![2, 6, 7, 3]]
  | .Y => ![![0, 1, 3, 2], ![4, 5, 7, 6]]
  | .Z => ![![0, 2, 6, 4], ![1, 3, 7, 5]]

/-- `subTable` of `edgeProc` (dc_octree.cpp:62-69; dmc_octree.cpp:118-121, 146-149, 174-177). -/
def dcEdgeSubTable : Axis → Fin 8 → Fin 4 × Fin 8
  | .X => ![(0, 5), (3, 4), (0, 7), (3, 6), (1, 1), (2, 0), (1, 3), (2, 2)]
  | .Y => ![(0, 3), (1, 2), (3, 1), (2, 0), (0, 7), (1, 6), (3, 5), (2, 4)]
  | .Z => ![(0, 6), (0, 7), (1, 4), (1, 5), (3, 2), (3, 3), (2, 0), (2, 1)]

/-- `faceTableX`, `faceTableY`, `faceTableZ` (dc_octree.cpp:133-135, dmc_octree.cpp:201-203). -/
def dcFaceTable : Axis → Fin 4 → Fin 2 → Fin 8
  | .X => ![![0, 2], ![4, 6], ![5, 7], ![1, 3]]
  | .Y => ![![0, 4], ![1, 5], ![3, 7], ![2, 6]]
  | .Z => ![![0, 1], ![2, 3], ![6, 7], ![4, 5]]

/-- `subTable` of `faceProcX`, `faceProcY`, `faceProcZ` (dc_octree.cpp:138-141, 177-180, 216-219;
dmc_octree.cpp:206-209, 247-250, 287-290). -/
def dcFaceSubTable : Axis → Fin 8 → Fin 2 × Fin 8
  | .X => ![(0, 2), (0, 3), (1, 0), (1, 1), (0, 6), (0, 7), (1, 4), (1, 5)]
  | .Y => ![(0, 4), (0, 5), (0, 6), (0, 7), (1, 0), (1, 1), (1, 2), (1, 3)]
  | .Z => ![(0, 1), (1, 0), (0, 3), (1, 2), (0, 5), (1, 4), (0, 7), (1, 6)]

/-- Order of the `edgeProc` calls in `faceProcX`, `faceProcY`, `faceProcZ` (dc_octree.cpp:160-173, 199-212, 238-251;
dmc_octree.cpp:228-241, 269-282, 309-322). -/
def dcFaceEdges : Axis → List Axis
  | .X => [.Y, .Z]
  | .Y => [.X, .Z]
  | .Z => [.X, .Y]

/-- Order of the calls in `cellProc` (dc_octree.cpp:263-275, dmc_octree.cpp:335-347). -/
def dcCellSteps : List CellStep :=
  ((List.finRange 4).flatMap fun i => [.face .X i, .face .Y i, .face .Z i]) ++
  ((List.finRange 2).flatMap fun i => [.edge .X i, .edge .Y i, .edge .Z i])

/-- The traversal of `DC_Octree` and `DMC_Octree`. -/
def dcTrav : Trav := ⟨dcEdgeSubTable, dcEdgeTable, dcFaceSubTable, dcFaceTable, dcFaceEdges, dcCellSteps⟩

/-- Position of an axis in tables. -/
def Axis.idx : Axis → Nat
  | .X => 0
  | .Y => 1
  | .Z => 2

/-- `t[i][j][k]`. -/
def tab3 (t : List (List (List Nat))) (i j k : Nat) : Nat := ((t.getD i []).getD j []).getD k 0

/-- The traversal of `MDC_Octree`: the tables of src/util/tables.cpp:25-71; `D2 = (D + 1) % 3`, `D3 = (D + 2) % 3`
(mdc_octree.cpp:119-122); all faces, then all edges, axis by axis (mdc_octree.cpp:134-139). -/
def mdcTrav : Trav where
  edgeChild D j := (Fin.ofNat 4 (tab3 kEdgeProcChildTable D.idx j 0), Fin.ofNat 8 (tab3 kEdgeProcChildTable D.idx j 1))
  edgeCall D i k := Fin.ofNat 8 (tab3 kEdgeProcCallTable D.idx i k)
  faceChild D j := (Fin.ofNat 2 (tab3 kFaceProcChildTable D.idx j 0), Fin.ofNat 8 (tab3 kFaceProcChildTable D.idx j 1))
  faceCall D i k := Fin.ofNat 8 (tab3 kFaceProcCallTable D.idx i k)
  faceEdges
    | .X => [.Y, .Z]
    | .Y => [.Z, .X]
    | .Z => [.X, .Y]
  cellSteps :=
    (List.finRange 4).map (.face .X) ++ (List.finRange 4).map (.face .Y) ++ (List.finRange 4).map (.face .Z) ++
    (List.finRange 2).map (.edge .X) ++ (List.finRange 2).map (.edge .Y) ++ (List.finRange 2).map (.edge .Z)

end Isomesh
