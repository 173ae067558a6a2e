import Verif.Basic
import Verif.Model.EdgeStorage

/-! Model of include/isomesh/data/grid.hpp and src/data/grid.cpp. -/

namespace Isomesh

/-- Exceptions thrown by constructors. -/
inductive CtorError
  | invalidArgument | lengthError
  deriving DecidableEq, Repr

/-- Size checks of the `UniformGrid` constructor (grid.cpp:14-19); `size` is a `uint32_t`. -/
def gridSizeCheck (size : Nat) : Except CtorError Unit :=
  if size < 2 then .error .invalidArgument
  else if size &&& (size - 1) ≠ 0 then .error .invalidArgument
  else if size > 1024 then .error .lengthError
  else .ok ()

/-- `UniformGrid` state (grid.hpp:106-114).  `mat` is the heap array `m_mat`; a slot is `none` while it has not been
written (the array is allocated uninitialised, grid.cpp:21). -/
structure Grid (K : Type) where
  size : Nat
  half : Int
  mat : List (Option Material)
  edgeX : List (GridEdge K)
  edgeY : List (GridEdge K)
  edgeZ : List (GridEdge K)
  globalPos : Vec3 K
  step : K

/-- `dataSize` (grid.hpp:45), 32-bit arithmetic. -/
def dataSizeOf (size : Nat) : Nat := u32 (u32 (u32 (size + 1) * u32 (size + 1)) * u32 (size + 1))

/-- `UniformGrid` constructor (grid.cpp:12-22). -/
def Grid.mk' {K : Type} (size : Nat) (globalPos : Vec3 K) (step : K) : Except CtorError (Grid K) :=
  match gridSizeCheck size with
  | .error e => .error e
  | .ok () => .ok
    { size := size, half := (size : Int) / 2, mat := List.replicate (dataSizeOf size) none,
      edgeX := [], edgeY := [], edgeZ := [], globalPos := globalPos, step := step }

section
variable {K : Type}

/-- `dataSize ()` (grid.hpp:45). -/
def Grid.dataSize (g : Grid K) : Nat := dataSizeOf g.size

/-- `maxCoord` (grid.hpp:47). -/
def Grid.maxCoord (g : Grid K) : Int := g.half
/-- `minCoord` (grid.hpp:48). -/
def Grid.minCoord (g : Grid K) : Int := -g.half

/-- `edges<D> ()` (grid.hpp:159-164). -/
def Grid.edges (g : Grid K) : Axis → List (GridEdge K)
  | .X => g.edgeX
  | .Y => g.edgeY
  | .Z => g.edgeZ

/-- `localToGlobal` (grid.hpp:52). -/
def Grid.localToGlobal [Add K] [Mul K] (g : Grid K) (L : Vec3 K) : Vec3 K :=
  ⟨L.x * g.step + g.globalPos.x, L.y * g.step + g.globalPos.y, L.z * g.step + g.globalPos.z⟩

/-- `globalToLocal` (grid.hpp:53). -/
def Grid.globalToLocal [Sub K] [Div K] (g : Grid K) (G : Vec3 K) : Vec3 K :=
  ⟨(G.x - g.globalPos.x) / g.step, (G.y - g.globalPos.y) / g.step, (G.z - g.globalPos.z) / g.step⟩

/-- `isVertexInGrid` (grid.cpp:164-172).  `glm::abs` is `|·|`; `abs (INT_MIN)` is undefined in C++ and excluded by
the theorems' ranges. -/
def Grid.isVertexInGrid (g : Grid K) (p : IVec3) : Bool :=
  if |p.x| > g.half then false
  else if |p.y| > g.half then false
  else if |p.z| > g.half then false
  else true

/-- `pointToIndex` (grid.cpp:142-148); `none` when the assertion fails. -/
def Grid.pointToIndex (g : Grid K) (p : IVec3) : Option Nat :=
  if g.isVertexInGrid p then
    let idx := u32 (toU32 (p.y + g.half) * u32 (g.size + 1))
    let idx := u32 (u32 (idx + toU32 (p.x + g.half)) * u32 (g.size + 1))
    some (u32 (idx + toU32 (p.z + g.half)))
  else none

/-- `indexToPoint` (grid.cpp:150-158); `none` when the assertion fails. -/
def Grid.indexToPoint (g : Grid K) (idx : Nat) : Option IVec3 :=
  if idx < dataSizeOf g.size then
    let n := u32 (g.size + 1)
    let z := ((idx % n : Nat) : Int) - g.half
    let idx := idx / n
    let x := ((idx % n : Nat) : Int) - g.half
    let idx := idx / n
    let y := (idx : Int) - g.half
    some ⟨x, y, z⟩
  else none

/-- `isVertexOnBorder` (grid.cpp:174-182). -/
def Grid.isVertexOnBorder (g : Grid K) (p : IVec3) : Bool :=
  if |p.x| = g.half then true
  else if |p.y| = g.half then true
  else if |p.z| = g.half then true
  else false

/-- `isEdgeInGrid<D>` (grid.cpp:188-219). -/
def Grid.isEdgeInGrid (g : Grid K) (D : Axis) (p : IVec3) : Bool :=
  match D with
  | .X =>
    if p.x < -g.half ∨ p.x ≥ g.half then false
    else if |p.y| > g.half then false
    else if |p.z| > g.half then false
    else true
  | .Y =>
    if p.y < -g.half ∨ p.y ≥ g.half then false
    else if |p.x| > g.half then false
    else if |p.z| > g.half then false
    else true
  | .Z =>
    if p.z < -g.half ∨ p.z ≥ g.half then false
    else if |p.x| > g.half then false
    else if |p.y| > g.half then false
    else true

/-- `isEdgeOnBorder<D>` (grid.cpp:221-246). -/
def Grid.isEdgeOnBorder (g : Grid K) (D : Axis) (p : IVec3) : Bool :=
  match D with
  | .X => if |p.y| = g.half then true else if |p.z| = g.half then true else false
  | .Y => if |p.x| = g.half then true else if |p.z| = g.half then true else false
  | .Z => if |p.x| = g.half then true else if |p.y| = g.half then true else false

/-- `adjacentCellsForEdge<D>` (grid.cpp:248-306); the four entries of the returned array.  The assignments to the
array in source order are kept as successive shadowings.  `none` when `pointToIndex` asserts. -/
def Grid.adjacentCellsForEdge (g : Grid K) (D : Axis) (p : IVec3) : Option (Nat × Nat × Nat × Nat) :=
  match g.pointToIndex p with
  | none => none
  | some idx =>
    let n1 := u32 (g.size + 1)
    match D with
    | .X =>
      let dy := u32 (n1 * n1)
      let dz := 1
      let c2 := idx
      let c0 := u32sub (u32sub c2 dy) dz
      let c1 := u32sub c2 dz
      let c3 := u32sub c2 dy
      let (c0, c3) := if p.y = -g.half then (kBadIndex, kBadIndex) else (c0, c3)
      let (c1, c2) := if p.y = g.half then (kBadIndex, kBadIndex) else (c1, c2)
      let (c0, c1) := if p.z = -g.half then (kBadIndex, kBadIndex) else (c0, c1)
      let (c2, c3) := if p.z = g.half then (kBadIndex, kBadIndex) else (c2, c3)
      some (c0, c1, c2, c3)
    | .Y =>
      let dx := n1
      let dz := 1
      let c2 := idx
      let c0 := u32sub (u32sub c2 dx) dz
      let c1 := u32sub c2 dx
      let c3 := u32sub c2 dz
      let (c0, c1) := if p.x = -g.half then (kBadIndex, kBadIndex) else (c0, c1)
      let (c2, c3) := if p.x = g.half then (kBadIndex, kBadIndex) else (c2, c3)
      let (c0, c3) := if p.z = -g.half then (kBadIndex, kBadIndex) else (c0, c3)
      let (c1, c2) := if p.z = g.half then (kBadIndex, kBadIndex) else (c1, c2)
      some (c0, c1, c2, c3)
    | .Z =>
      let dx := n1
      let dy := u32 (n1 * n1)
      let c2 := idx
      let c0 := u32sub (u32sub c2 dx) dy
      let c1 := u32sub c2 dy
      let c3 := u32sub c2 dx
      let (c0, c3) := if p.x = -g.half then (kBadIndex, kBadIndex) else (c0, c3)
      let (c1, c2) := if p.x = g.half then (kBadIndex, kBadIndex) else (c1, c2)
      let (c0, c1) := if p.y = -g.half then (kBadIndex, kBadIndex) else (c0, c1)
      let (c2, c3) := if p.y = g.half then (kBadIndex, kBadIndex) else (c2, c3)
      some (c0, c1, c2, c3)

/-- `isFaceInGrid<D>` (grid.cpp:312-343). -/
def Grid.isFaceInGrid (g : Grid K) (D : Axis) (p : IVec3) : Bool :=
  match D with
  | .X =>
    if |p.x| > g.half then false
    else if p.y < -g.half ∨ p.y ≥ g.half then false
    else if p.z < -g.half ∨ p.z ≥ g.half then false
    else true
  | .Y =>
    if |p.y| > g.half then false
    else if p.x < -g.half ∨ p.x ≥ g.half then false
    else if p.z < -g.half ∨ p.z ≥ g.half then false
    else true
  | .Z =>
    if |p.z| > g.half then false
    else if p.x < -g.half ∨ p.x ≥ g.half then false
    else if p.y < -g.half ∨ p.y ≥ g.half then false
    else true

/-- `isFaceOnBorder<D>` (grid.cpp:345-364). -/
def Grid.isFaceOnBorder (g : Grid K) (D : Axis) (p : IVec3) : Bool :=
  match D with
  | .X => if |p.x| = g.half then true else false
  | .Y => if |p.y| = g.half then true else false
  | .Z => if |p.z| = g.half then true else false

/-- `isCellInGrid` (grid.cpp:370-376). -/
def Grid.isCellInGrid (g : Grid K) (p : IVec3) : Bool :=
  if p.x < -g.half ∨ p.y < -g.half ∨ p.z < -g.half then false
  else if p.x ≥ g.half ∨ p.y ≥ g.half ∨ p.z ≥ g.half then false
  else true

/-- `isCellOnBorder` (grid.cpp:378-384). -/
def Grid.isCellOnBorder (g : Grid K) (p : IVec3) : Bool :=
  if p.x = -g.half ∨ p.y = -g.half ∨ p.z = -g.half then true
  else if p.x = g.half - 1 ∨ p.y = g.half - 1 ∨ p.z = g.half - 1 then true
  else false

/-- `adjacentVerticesForCell` (grid.cpp:386-400). -/
def Grid.adjacentVerticesForCell (g : Grid K) (cellIdx : Nat) : List Nat :=
  let dx := u32 (g.size + 1)
  let dy := u32 (u32 (g.size + 1) * u32 (g.size + 1))
  let dz := 1
  [cellIdx, u32 (cellIdx + dz), u32 (cellIdx + dx), u32 (u32 (cellIdx + dx) + dz),
   u32 (cellIdx + dy), u32 (u32 (cellIdx + dy) + dz), u32 (u32 (cellIdx + dx) + dy),
   u32 (u32 (u32 (cellIdx + dx) + dy) + dz)]

/-- Read of a material slot: `none` if out of bounds or never written (undefined behaviour). -/
def Grid.readMat (g : Grid K) (i : Nat) : Option Material := (g.mat[i]?).join

/-- `at` (grid.cpp:129-132). -/
def Grid.at (g : Grid K) (p : IVec3) : Option Material :=
  match g.pointToIndex p with
  | none => none
  | some i => g.readMat i

/-- `materialsOfCell` (grid.cpp:402-416): the same eight addresses as `adjacentVerticesForCell`, in the same order,
read from the material array. -/
def Grid.materialsOfCell (g : Grid K) (cellIdx : Nat) : Option (List Material) :=
  let dx := u32 (g.size + 1)
  let dy := u32 (u32 (g.size + 1) * u32 (g.size + 1))
  let dz := 1
  [cellIdx, u32 (cellIdx + dz), u32 (cellIdx + dx), u32 (u32 (cellIdx + dx) + dz),
   u32 (cellIdx + dy), u32 (u32 (cellIdx + dy) + dz), u32 (u32 (cellIdx + dx) + dy),
   u32 (u32 (u32 (cellIdx + dx) + dy) + dz)].mapM g.readMat

end

/-! ### `fill` -/

section
variable {K : Type} [Add K] [Sub K] [Mul K] [Div K] [Zero K] [IntCast K] [LE K] [LT K] [DecidableLE K] [DecidableLT K]

/-- State of the value-sampling loop of `fill` (grid.cpp:25-46). -/
structure FillState (K : Type) where
  idx : Nat
  pos : Vec3 K
  values : List K
  mat : List (Option Material)

/-- Innermost body of the sampling loop (grid.cpp:35-41). -/
def fillBody (f : ScalarField K) (step : K) (s : FillState K) : Option (FillState K) := do
  let v := f.value s.pos
  let values ← write s.values s.idx v
  let m := if v > 0 then Material.Empty else f.material s.pos v
  let mat ← write s.mat s.idx (some m)
  some { idx := u32 (s.idx + 1), pos := { s.pos with z := s.pos.z + step }, values := values, mat := mat }

/-- The sampling loop (grid.cpp:25-46): field values over the grid and the material array. -/
def fillValues (g : Grid K) (f : ScalarField K) : Option (FillState K) :=
  let lowest := g.localToGlobal ⟨((-g.half : Int) : K), ((-g.half : Int) : K), ((-g.half : Int) : K)⟩
  let s0 : FillState K :=
    { idx := 0, pos := lowest, values := List.replicate g.dataSize 0, mat := g.mat }
  forLE (-g.half) g.half s0 fun s _y => do
    let s := { s with pos := { s.pos with x := lowest.x } }
    let s ← forLE (-g.half) g.half s fun s _x => do
      let s := { s with pos := { s.pos with z := lowest.z } }
      let s ← forLE (-g.half) g.half s fun s _z => fillBody f g.step s
      some { s with pos := { s.pos with x := s.pos.x + g.step } }
    some { s with pos := { s.pos with y := s.pos.y + g.step } }

/-- State of an edge loop of `fill`: the two running indices and the edge storage. -/
structure EdgeState (K : Type) where
  idx1 : Nat
  idx2 : Nat
  edges : List (GridEdge K)

/-- Body of the X edge loop (grid.cpp:58-71). -/
def edgeBodyX (g : Grid K) (f : ScalarField K) (solver : ZeroFinder K) (values : List K)
    (mat : List (Option Material)) (s : EdgeState K) (x y z : Int) : Option (EdgeState K) := do
  let v1 ← values[s.idx1]?
  let v2 ← values[s.idx2]?
  let sign1 := decide (v1 ≤ 0)
  let sign2 := decide (v2 ≤ 0)
  let edges ←
    if sign1 ≠ sign2 then do
      let p := g.localToGlobal ⟨(x : K), (y : K), (z : K)⟩
      let x0 := p.x
      let x1 := p.x + g.step
      let p := { p with x := solver.findAlongX x0 p.y p.z x1 v1 v2 f }
      let grad := f.grad p
      let offset := (p.x - x0) / g.step
      let m ← if sign1 then (mat[s.idx1]?).join else (mat[s.idx2]?).join
      addEdge s.edges ⟨⟨x, y, z⟩, grad, offset, .X, sign1, m⟩
    else some s.edges
  some ⟨u32 (s.idx1 + 1), u32 (s.idx2 + 1), edges⟩

/-- Body of the Y edge loop (grid.cpp:84-97). -/
def edgeBodyY (g : Grid K) (f : ScalarField K) (solver : ZeroFinder K) (values : List K)
    (mat : List (Option Material)) (s : EdgeState K) (x y z : Int) : Option (EdgeState K) := do
  let v1 ← values[s.idx1]?
  let v2 ← values[s.idx2]?
  let sign1 := decide (v1 ≤ 0)
  let sign2 := decide (v2 ≤ 0)
  let edges ←
    if sign1 ≠ sign2 then do
      let p := g.localToGlobal ⟨(x : K), (y : K), (z : K)⟩
      let y0 := p.y
      let y1 := p.y + g.step
      let p := { p with y := solver.findAlongY p.x y0 p.z y1 v1 v2 f }
      let grad := f.grad p
      let offset := (p.y - y0) / g.step
      let m ← if sign1 then (mat[s.idx1]?).join else (mat[s.idx2]?).join
      addEdge s.edges ⟨⟨x, y, z⟩, grad, offset, .Y, sign1, m⟩
    else some s.edges
  some ⟨u32 (s.idx1 + 1), u32 (s.idx2 + 1), edges⟩

/-- Body of the Z edge loop (grid.cpp:108-121). -/
def edgeBodyZ (g : Grid K) (f : ScalarField K) (solver : ZeroFinder K) (values : List K)
    (mat : List (Option Material)) (s : EdgeState K) (x y z : Int) : Option (EdgeState K) := do
  let v1 ← values[s.idx1]?
  let v2 ← values[s.idx2]?
  let sign1 := decide (v1 ≤ 0)
  let sign2 := decide (v2 ≤ 0)
  let edges ←
    if sign1 ≠ sign2 then do
      let p := g.localToGlobal ⟨(x : K), (y : K), (z : K)⟩
      let z0 := p.z
      let z1 := p.z + g.step
      let p := { p with z := solver.findAlongZ p.x p.y z0 z1 v1 v2 f }
      let grad := f.grad p
      let offset := (p.z - z0) / g.step
      let m ← if sign1 then (mat[s.idx1]?).join else (mat[s.idx2]?).join
      addEdge s.edges ⟨⟨x, y, z⟩, grad, offset, .Z, sign1, m⟩
    else some s.edges
  some ⟨u32 (s.idx1 + 1), u32 (s.idx2 + 1), edges⟩

/-- X edge loop (grid.cpp:52-76). -/
def fillX (g : Grid K) (f : ScalarField K) (solver : ZeroFinder K) (values : List K)
    (mat : List (Option Material)) : Option (EdgeState K) :=
  forLE (-g.half) g.half ⟨0, u32 (g.size + 1), []⟩ fun s y => do
    let s ← forLT (-g.half) g.half s fun s x =>
      forLE (-g.half) g.half s fun s z => edgeBodyX g f solver values mat s x y z
    some { s with idx1 := u32 (s.idx1 + u32 (g.size + 1)), idx2 := u32 (s.idx2 + u32 (g.size + 1)) }

/-- Y edge loop (grid.cpp:78-100). -/
def fillY (g : Grid K) (f : ScalarField K) (solver : ZeroFinder K) (values : List K)
    (mat : List (Option Material)) : Option (EdgeState K) :=
  forLT (-g.half) g.half ⟨0, u32 (u32 (g.size + 1) * u32 (g.size + 1)), []⟩ fun s y =>
    forLE (-g.half) g.half s fun s x =>
      forLE (-g.half) g.half s fun s z => edgeBodyY g f solver values mat s x y z

/-- Z edge loop (grid.cpp:102-126). -/
def fillZ (g : Grid K) (f : ScalarField K) (solver : ZeroFinder K) (values : List K)
    (mat : List (Option Material)) : Option (EdgeState K) :=
  forLE (-g.half) g.half ⟨0, 1, []⟩ fun s y =>
    forLE (-g.half) g.half s fun s x => do
      let s ← forLT (-g.half) g.half s fun s z => edgeBodyZ g f solver values mat s x y z
      some { s with idx1 := u32 (s.idx1 + 1), idx2 := u32 (s.idx2 + 1) }

/-- `fill` (grid.cpp:24-127); `none` = undefined behaviour or failed assertion. -/
def Grid.fill (g : Grid K) (f : ScalarField K) (solver : ZeroFinder K) : Option (Grid K) := do
  let s ← fillValues g f
  let ex ← fillX g f solver s.values s.mat
  let ey ← fillY g f solver s.values s.mat
  let ez ← fillZ g f solver s.values s.mat
  some { g with mat := s.mat, edgeX := ex.edges, edgeY := ey.edges, edgeZ := ez.edges }

end
end Isomesh

namespace Isomesh

/-- Structural facts established by the constructor and preserved by `fill`. -/
structure Grid.WF {K : Type} (g : Grid K) : Prop where
  two_le : 2 ≤ g.size
  le : g.size ≤ 1024
  half_eq : (g.size : Int) = 2 * g.half
  mat_len : g.mat.length = dataSizeOf g.size

/-- Every history of a grid object: construction followed by any number of successful `fill` calls. -/
inductive Grid.Reachable {K : Type} [Add K] [Sub K] [Mul K] [Div K] [Zero K] [IntCast K] [LE K] [LT K] [DecidableLE K] [DecidableLT K] : Grid K → Prop
  | mk {size : Nat} {pos : Vec3 K} {step : K} {g : Grid K} : Grid.mk' size pos step = .ok g → Grid.Reachable g
  | fill {g g' : Grid K} {f : ScalarField K} {sv : ZeroFinder K} :
      Grid.Reachable g → g.fill f sv = some g' → Grid.Reachable g'

end Isomesh
