import Verif.Model.FillCrash

/-! Specification: histories of a grid with exceptions, and what a call of `fill` that throws leaves (C82). -/

namespace Isomesh

variable {K : Type} [Add K] [Sub K] [Mul K] [Div K] [Zero K] [IntCast K] [LinearOrder K]

/-- Every history of a grid object: construction followed by any number of `fill` calls, each of which may return or throw anywhere. -/
inductive Grid.ReachableE : Grid K → Prop
  | mk {size : Nat} {pos : Vec3 K} {step : K} {g : Grid K} : Grid.mk' size pos step = .ok g → Grid.ReachableE g
  | returned {g g' : Grid K} {f : ScalarField K} {sv : ZeroFinder K} {noValues : Bool} {fails : Axis → IVec3 → Bool} :
      Grid.ReachableE g → g.fillE f sv noValues fails = some (.next g') → Grid.ReachableE g'
  | thrown {g g' : Grid K} {f : ScalarField K} {sv : ZeroFinder K} {noValues : Bool} {fails : Axis → IVec3 → Bool} :
      Grid.ReachableE g → g.fillE f sv noValues fails = some (.thrown g') → Grid.ReachableE g'

/-- What a call of `fill` leaves, in terms of the grid `G` that the same call without exceptions gives. -/
inductive Spec.LeftBy (g G : Grid K) (noValues : Bool) (fails : Axis → IVec3 → Bool) : Flow (Grid K) → Prop
  /-- no memory for the values: nothing has changed -/
  | early : noValues = true → Spec.LeftBy g G noValues fails (.thrown g)
  /-- an exception at a crossing edge along X -/
  | inX (e : GridEdge K) : noValues = false → e ∈ G.edgeX → fails .X e.lesser = true →
      Spec.LeftBy g G noValues fails (.thrown { g with mat := G.mat, edgeX := G.edgeX.takeWhile fun e => !fails .X e.lesser })
  /-- the first exception at a crossing edge along Y -/
  | inY (e : GridEdge K) : noValues = false → (∀ e ∈ G.edgeX, fails .X e.lesser = false) → e ∈ G.edgeY → fails .Y e.lesser = true →
      Spec.LeftBy g G noValues fails (.thrown { g with mat := G.mat, edgeX := G.edgeX, edgeY := G.edgeY.takeWhile fun e => !fails .Y e.lesser })
  /-- the first exception at a crossing edge along Z -/
  | inZ (e : GridEdge K) : noValues = false → (∀ e ∈ G.edgeX, fails .X e.lesser = false) → (∀ e ∈ G.edgeY, fails .Y e.lesser = false) →
      e ∈ G.edgeZ → fails .Z e.lesser = true →
      Spec.LeftBy g G noValues fails (.thrown { g with mat := G.mat, edgeX := G.edgeX, edgeY := G.edgeY, edgeZ := G.edgeZ.takeWhile fun e => !fails .Z e.lesser })
  /-- no exception -/
  | returned : noValues = false → (∀ D, ∀ e ∈ G.edges D, fails D e.lesser = false) → Spec.LeftBy g G noValues fails (.next G)

end Isomesh
