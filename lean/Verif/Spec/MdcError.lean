import Verif.Spec.DcError
import Verif.Spec.MdcOctree
import Mathlib.Algebra.BigOperators.Finprod

/-! Specification vocabulary for the error bound of manifold dual contouring. -/

namespace Isomesh.Spec

noncomputable section

open Classical in
/-- Squared distance of `x` to the tangent plane of the surface crossing of the edge `e`. -/
def edgeErr (eps : ℝ) (g : Grid ℝ) (e : LEdge) (x : VecN ℝ 3) : ℝ :=
  planesErr (edgePlanes eps ((edgeList g).filter fun r => decide (LEdge.ofGridEdge r = e))) x

/-- Sum of the squared distances of `x` to the tangent planes of the crossings in `X`. -/
def crossErr (eps : ℝ) (g : Grid ℝ) (X : Set CellCrossing) (x : VecN ℝ 3) : ℝ := ∑ᶠ y ∈ X, edgeErr eps g y.edge x

/-- The call of the solver that finds the best point of a cube. -/
def boxSolve (c : Cube) : QefOp ℝ 3 :=
  .solve ![(c.lo.x : ℝ), c.lo.y, c.lo.z] ![((c.lo.x + 2 ^ c.k : Int) : ℝ), ((c.lo.y + 2 ^ c.k : Int) : ℝ), ((c.lo.z + 2 ^ c.k : Int) : ℝ)]

/-- Calls of the solver made for a sheet of the cell `P` with these edges. -/
def sheetCalls (eps : ℝ) (P : IVec3) (es : List (GridEdge ℝ)) : List (QefOp ℝ 3) := .reset :: es.map (planeOp eps) ++ [boxSolve ⟨P, 0⟩]

/-- Calls of the solver made to merge vertices with the given states. -/
def mergeCalls (c : Cube) (ss : List (QState ℝ 3)) : List (QefOp ℝ 3) := .reset :: ss.map .merge ++ [boxSolve c]

/-- `X` are all crossings of one sheet of the surface in the cell `P`. -/
def SheetOf (g : Grid ℝ) (P : IVec3) (X : Set CellCrossing) : Prop :=
  ∃ x ∈ X, ∀ y, y ∈ X ↔ y.cell = P ∧ CrossingOf g P y.edge ∧ SameSheet g P x.edge y.edge

/-- `es` are the records of the edges of the crossings `X` of the cell `P`. -/
def RecordsOf (g : Grid ℝ) (P : IVec3) (X : Set CellCrossing) (es : List (GridEdge ℝ)) : Prop :=
  es.Nodup ∧ ∀ e, e ∈ es ↔ e ∈ edgeList g ∧ ⟨P, e.axis, e.lesser⟩ ∈ X

/-- The crossings `X` of a cube are split among vertices in smaller cubes of the octree. -/
def SplitInto {S : Type} (c : Cube) (X : Set CellCrossing) (kids : List (Cube × Set CellCrossing × S)) : Prop :=
  kids ≠ [] ∧ (∀ k ∈ kids, Dyadic c k.1 ∧ k.1.k < c.k) ∧ kids.Pairwise (fun k k' => ∀ x ∈ k.2.1, x ∉ k'.2.1) ∧
    ∀ x, x ∈ X ↔ ∃ k ∈ kids, x ∈ k.2.1

/-- States of the solver that may be stored for a vertex standing for the crossings `X` of a cube. -/
inductive FitState (eps tiny : ℝ) (g : Grid ℝ) (options : Qef ℝ 3) : Cube → Set CellCrossing → QState ℝ 3 → Prop where
  | cell {P : IVec3} {X : Set CellCrossing} {es : List (GridEdge ℝ)} {q1 q2 : Qef ℝ 3} {s : QState ℝ 3} :
    SheetOf g P X → RecordsOf g P X es → runOps qef3Rows 30 tiny options (sheetCalls eps P es) = some q1 →
    q1.state qef3Rows 30 tiny = some (q2, s) → FitState eps tiny g options ⟨P, 0⟩ X s
  | node {c : Cube} {X : Set CellCrossing} {kids : List (Cube × Set CellCrossing × QState ℝ 3)} {q1 q2 : Qef ℝ 3} {s : QState ℝ 3} :
    SplitInto c X kids → (∀ k ∈ kids, FitState eps tiny g options k.1 k.2.1 k.2.2) →
    runOps qef3Rows 30 tiny options (mergeCalls c (kids.map fun k => k.2.2)) = some q1 → q1.state qef3Rows 30 tiny = some (q2, s) →
    FitState eps tiny g options c X s

/-- No compression of the solver meets a tiny column while the octree is built. -/
structure CleanMdc (eps tiny : ℝ) (g : Grid ℝ) (options : Qef ℝ 3) (root : Cube) : Prop where
  cell : ∀ P X es, Dyadic root ⟨P, 0⟩ → SheetOf g P X → RecordsOf g P X es →
    CleanRun qef3Rows 30 tiny options (sheetCalls eps P es ++ [.state])
  node : ∀ c X kids, Dyadic root c → SplitInto c X kids → (∀ k ∈ kids, FitState eps tiny g options k.1 k.2.1 k.2.2) →
    CleanRun qef3Rows 30 tiny options (mergeCalls c (kids.map fun k => k.2.2) ++ [.state])

end
end Isomesh.Spec
