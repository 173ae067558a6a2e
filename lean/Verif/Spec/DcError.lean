import Verif.Spec.Near
import Verif.Spec.DcOctree

/-! Specification vocabulary for the error bound of simplified octrees. -/

namespace Isomesh.Spec

noncomputable section

open Classical in
/-- The stored edges of the cell `P`. -/
def cellEdgeList (g : Grid ℝ) (P : IVec3) : List (GridEdge ℝ) := (edgeList g).filter fun e => decide (EdgeOfCell P e.axis e.lesser)

/-- Sum of the squared distances of `x` to the tangent planes of all the surface crossings in the cube of side `2 ^ k` with least corner `lo`; an
edge counts once for every cell of the cube it belongs to. -/
def cubeErr (eps : ℝ) (g : Grid ℝ) : Nat → IVec3 → VecN ℝ 3 → ℝ
  | 0, lo, x => planesErr (edgePlanes eps (cellEdgeList g lo)) x
  | k + 1, lo, x => ∑ i : Fin 8, cubeErr eps g k (octCorner lo (2 ^ k) i) x

/-- Calls of the solver made for a cell with these edges. -/
def cellCalls (eps : ℝ) (P : IVec3) (es : List (GridEdge ℝ)) : List (QefOp ℝ 3) :=
  .reset :: es.map (planeOp eps) ++ [.solve (cellLo P) (cellHi P)]

/-- Calls of the solver made to merge the given states of octants of a cube of side `2 ^ (k + 1)`. -/
def cubeCalls (k : Nat) (lo : IVec3) (σ : Fin 8 → Option (QState ℝ 3)) : List (QefOp ℝ 3) :=
  .reset :: ((List.finRange 8).filterMap σ).map .merge ++
    [.solve ![(lo.x : ℝ), lo.y, lo.z] ![((lo.x + 2 ^ (k + 1) : Int) : ℝ), ((lo.y + 2 ^ (k + 1) : Int) : ℝ), ((lo.z + 2 ^ (k + 1) : Int) : ℝ)]]

/-- States of the solver that may be stored for a cube. -/
inductive CubeState (eps tiny : ℝ) (g : Grid ℝ) (options : Qef ℝ 3) : Nat → IVec3 → QState ℝ 3 → Prop where
  | cell {P : IVec3} {es : List (GridEdge ℝ)} {q1 q2 : Qef ℝ 3} {s : QState ℝ 3} :
    StoredEdges g P es → runOps qef3Rows 30 tiny options (cellCalls eps P es) = some q1 → q1.state qef3Rows 30 tiny = some (q2, s) →
    CubeState eps tiny g options 0 P s
  | node {k : Nat} {lo : IVec3} {σ : Fin 8 → Option (QState ℝ 3)} {q1 q2 : Qef ℝ 3} {s : QState ℝ 3} :
    (∀ i t, σ i = some t → CubeState eps tiny g options k (octCorner lo (2 ^ k) i) t) →
    runOps qef3Rows 30 tiny options (cubeCalls k lo σ) = some q1 → q1.state qef3Rows 30 tiny = some (q2, s) →
    CubeState eps tiny g options (k + 1) lo s

/-- No compression of the solver meets a tiny column while an octree is built. -/
structure CleanBuild (eps tiny : ℝ) (g : Grid ℝ) (options : Qef ℝ 3) : Prop where
  cell : ∀ P es, CellIn g.maxCoord P → StoredEdges g P es → CleanRun qef3Rows 30 tiny options (cellCalls eps P es ++ [.state])
  node : ∀ k lo σ, CubeIn g.maxCoord ⟨lo, k + 1⟩ → (∀ i t, σ i = some t → CubeState eps tiny g options k (octCorner lo (2 ^ k) i) t) →
    CleanRun qef3Rows 30 tiny options (cubeCalls k lo σ ++ [.state])

end
end Isomesh.Spec
