import Verif.Model.Grid

/-! Model of `UniformGrid::fill` (src/data/grid.cpp:24-127) with exceptions.

What can throw: the allocation of `values` (grid.cpp:25), the zero finder (`findAlong*` is not `noexcept`, zero_finder.hpp:23-35) and the allocation
in `addEdge` (`emplace_back`, grid_edge_storage.hpp:86-87; it leaves the storage as it was).  The functions of `ScalarField` are `noexcept`
(scalar_field.hpp:29-53): an exception in them ends the program.  Every edge is visited at most once per call, so which calls throw is
described by a set of edges. -/

namespace Isomesh

variable {K : Type} [Add K] [Sub K] [Mul K] [Div K] [Zero K] [IntCast K] [LinearOrder K]

/-- What ends a statement: going on to the next one or an exception; the state is what is in memory then. -/
inductive Flow (σ : Type) where
  | next : σ → Flow σ
  | thrown : σ → Flow σ

/-- A loop over values (`for`, left at the first exception). -/
def loopE {σ : Type} (body : σ → Int → Option (Flow σ)) : List Int → σ → Option (Flow σ)
  | [], s => some (.next s)
  | i :: is, s =>
    match body s i with
    | none => none
    | some (.thrown s') => some (.thrown s')
    | some (.next s') => loopE body is s'

/-- `for (int32_t v = lo; v < hi; v++)` with exceptions. -/
def forLTE {σ : Type} (lo hi : Int) (s : σ) (body : σ → Int → Option (Flow σ)) : Option (Flow σ) :=
  loopE body ((List.range (hi - lo).toNat).map fun (i : Nat) => lo + i) s

/-- `for (int32_t v = lo; v <= hi; v++)` with exceptions. -/
def forLEE {σ : Type} (lo hi : Int) (s : σ) (body : σ → Int → Option (Flow σ)) : Option (Flow σ) := forLTE lo (hi + 1) s body

/-- A statement that cannot throw after one that can. -/
def Flow.andThen {σ : Type} (r : Option (Flow σ)) (k : σ → Option σ) : Option (Flow σ) :=
  match r with
  | none => none
  | some (.thrown s) => some (.thrown s)
  | some (.next s) => (k s).map .next

/-- Body of an edge loop (grid.cpp:58-71, 84-97, 108-121) with exceptions: on a crossing edge the zero finder is called and then an edge is
added; if one of them throws (`fails`), neither the storage nor the indices have changed. -/
def edgeBodyE (body : EdgeState K → Int → Int → Int → Option (EdgeState K)) (fails : IVec3 → Bool) (values : List K)
    (s : EdgeState K) (x y z : Int) : Option (Flow (EdgeState K)) :=
  match values[s.idx1]?, values[s.idx2]? with
  | some v1, some v2 =>
    if decide (v1 ≤ 0) ≠ decide (v2 ≤ 0) ∧ fails ⟨x, y, z⟩ = true then some (.thrown s)
    else (body s x y z).map .next
  | _, _ => none

/-- X edge loop (grid.cpp:52-76) with exceptions. -/
def fillXE (g : Grid K) (f : ScalarField K) (solver : ZeroFinder K) (fails : IVec3 → Bool) (values : List K)
    (mat : List (Option Material)) : Option (Flow (EdgeState K)) :=
  forLEE (-g.half) g.half ⟨0, u32 (g.size + 1), []⟩ fun s y =>
    Flow.andThen
      (forLTE (-g.half) g.half s fun s x =>
        forLEE (-g.half) g.half s fun s z => edgeBodyE (edgeBodyX g f solver values mat) fails values s x y z)
      fun s => some { s with idx1 := u32 (s.idx1 + u32 (g.size + 1)), idx2 := u32 (s.idx2 + u32 (g.size + 1)) }

/-- Y edge loop (grid.cpp:78-100) with exceptions. -/
def fillYE (g : Grid K) (f : ScalarField K) (solver : ZeroFinder K) (fails : IVec3 → Bool) (values : List K)
    (mat : List (Option Material)) : Option (Flow (EdgeState K)) :=
  forLTE (-g.half) g.half ⟨0, u32 (u32 (g.size + 1) * u32 (g.size + 1)), []⟩ fun s y =>
    forLEE (-g.half) g.half s fun s x =>
      forLEE (-g.half) g.half s fun s z => edgeBodyE (edgeBodyY g f solver values mat) fails values s x y z

/-- Z edge loop (grid.cpp:102-126) with exceptions. -/
def fillZE (g : Grid K) (f : ScalarField K) (solver : ZeroFinder K) (fails : IVec3 → Bool) (values : List K)
    (mat : List (Option Material)) : Option (Flow (EdgeState K)) :=
  forLEE (-g.half) g.half ⟨0, 1, []⟩ fun s y =>
    forLEE (-g.half) g.half s fun s x =>
      Flow.andThen (forLTE (-g.half) g.half s fun s z => edgeBodyE (edgeBodyZ g f solver values mat) fails values s x y z)
        fun s => some { s with idx1 := u32 (s.idx1 + 1), idx2 := u32 (s.idx2 + 1) }

/-- `fill` (grid.cpp:24-127) with exceptions; the result is the grid left in memory, and whether the call returned or threw.  The materials are
written while sampling, each storage is cleared just before its loop. -/
def Grid.fillE (g : Grid K) (f : ScalarField K) (solver : ZeroFinder K) (noValues : Bool) (fails : Axis → IVec3 → Bool) :
    Option (Flow (Grid K)) :=
  if noValues then some (.thrown g)
  else
    match fillValues g f with
    | none => none
    | some s =>
      match fillXE g f solver (fails .X) s.values s.mat with
      | none => none
      | some (.thrown ex) => some (.thrown { g with mat := s.mat, edgeX := ex.edges })
      | some (.next ex) =>
        match fillYE g f solver (fails .Y) s.values s.mat with
        | none => none
        | some (.thrown ey) => some (.thrown { g with mat := s.mat, edgeX := ex.edges, edgeY := ey.edges })
        | some (.next ey) =>
          match fillZE g f solver (fails .Z) s.values s.mat with
          | none => none
          | some (.thrown ez) => some (.thrown { g with mat := s.mat, edgeX := ex.edges, edgeY := ey.edges, edgeZ := ez.edges })
          | some (.next ez) => some (.next { g with mat := s.mat, edgeX := ex.edges, edgeY := ey.edges, edgeZ := ez.edges })

end Isomesh
