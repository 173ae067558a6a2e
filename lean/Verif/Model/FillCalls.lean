import Verif.Model.Grid
import Verif.Model.ZeroFinder

/-! `UniformGrid::fill` with user code that need not be a pure function: a field that caches, counts, draws random numbers or is
changed by another part of the program may answer the same question differently each time. -/

namespace Isomesh

/-- One call of user code made by `fill`, with its answer: `f (q)`, `f.material (q, v)`, `solver.findAlongD (start, far end, v, w, f)`,
`f.grad (q)`. -/
inductive Call (K : Type)
  | value (q : Vec3 K) (answer : K)
  | material (q : Vec3 K) (v : K) (answer : Material)
  | find (D : Axis) (start : Vec3 K) (far v w : K) (answer : K)
  | grad (q : Vec3 K) (answer : Vec3 K)

/-- User code: a scalar field (scalar_field.hpp:20-53) and a zero finder (zero_finder.hpp) whose answers may depend on all calls made before
(and so on any hidden state).  The calls a zero finder makes itself are part of the finder. -/
structure UserCode (K : Type) where
  value : List (Call K) → Vec3 K → K
  material : List (Call K) → Vec3 K → K → Material
  find : List (Call K) → Axis → Vec3 K → K → K → K → K
  grad : List (Call K) → Vec3 K → Vec3 K

section
variable {K : Type} [Add K] [Sub K] [Mul K] [Div K] [Zero K] [IntCast K] [LE K] [LT K] [DecidableLE K] [DecidableLT K]

/-- Ordinary user code: a field and a finder that are functions. -/
def UserCode.ofField (f : ScalarField K) (solver : ZeroFinder K) : UserCode K where
  value _ q := f.value q
  material _ q v := f.material q v
  find _ D a far v w :=
    match D with
    | .X => solver.findAlongX a.x a.y a.z far v w f
    | .Y => solver.findAlongY a.x a.y a.z far v w f
    | .Z => solver.findAlongZ a.x a.y a.z far v w f
  grad _ q := f.grad q

/-- Innermost body of the sampling loop (grid.cpp:35-41); the second component is the list of calls made so far. -/
def fillBodyH (u : UserCode K) (step : K) (s : FillState K × List (Call K)) : Option (FillState K × List (Call K)) := do
  let v := u.value s.2 s.1.pos
  let h := s.2 ++ [.value s.1.pos v]
  let values ← write s.1.values s.1.idx v
  let r := if v > 0 then (Material.Empty, h) else
    (u.material h s.1.pos v, h ++ [.material s.1.pos v (u.material h s.1.pos v)])
  let mat ← write s.1.mat s.1.idx (some r.1)
  some (⟨u32 (s.1.idx + 1), { s.1.pos with z := s.1.pos.z + step }, values, mat⟩, r.2)

/-- The sampling loop (grid.cpp:25-46). -/
def fillValuesH (g : Grid K) (u : UserCode K) (h : List (Call K)) : Option (FillState K × List (Call K)) :=
  let lowest := g.localToGlobal ⟨((-g.half : Int) : K), ((-g.half : Int) : K), ((-g.half : Int) : K)⟩
  let s0 : FillState K := { idx := 0, pos := lowest, values := List.replicate g.dataSize 0, mat := g.mat }
  forLE (-g.half) g.half (s0, h) fun s _y => do
    let s := ({ s.1 with pos := { s.1.pos with x := lowest.x } }, s.2)
    let s ← forLE (-g.half) g.half s fun s _x => do
      let s := ({ s.1 with pos := { s.1.pos with z := lowest.z } }, s.2)
      let s ← forLE (-g.half) g.half s fun s _z => fillBodyH u g.step s
      some ({ s.1 with pos := { s.1.pos with x := s.1.pos.x + g.step } }, s.2)
    some ({ s.1 with pos := { s.1.pos with y := s.1.pos.y + g.step } }, s.2)

/-- Body of an edge loop, the same for the three axes up to the axis (grid.cpp:58-71, 84-97, 108-121). -/
def edgeBodyH (g : Grid K) (u : UserCode K) (D : Axis) (values : List K) (mat : List (Option Material))
    (s : EdgeState K × List (Call K)) (x y z : Int) : Option (EdgeState K × List (Call K)) := do
  let v1 ← values[s.1.idx1]?
  let v2 ← values[s.1.idx2]?
  let sign1 := decide (v1 ≤ 0)
  let sign2 := decide (v2 ≤ 0)
  let r ←
    if sign1 ≠ sign2 then do
      let p := g.localToGlobal ⟨(x : K), (y : K), (z : K)⟩
      let near := p.get D
      let far := p.get D + g.step
      let c := u.find s.2 D p far v1 v2
      let h := s.2 ++ [.find D p far v1 v2 c]
      let p := p.set D c
      let grad := u.grad h p
      let h := h ++ [.grad p grad]
      let offset := (p.get D - near) / g.step
      let m ← if sign1 then (mat[s.1.idx1]?).join else (mat[s.1.idx2]?).join
      let edges ← addEdge s.1.edges ⟨⟨x, y, z⟩, grad, offset, D, sign1, m⟩
      some (edges, h)
    else some (s.1.edges, s.2)
  some (⟨u32 (s.1.idx1 + 1), u32 (s.1.idx2 + 1), r.1⟩, r.2)

/-- X edge loop (grid.cpp:52-76). -/
def fillXH (g : Grid K) (u : UserCode K) (values : List K) (mat : List (Option Material)) (h : List (Call K)) :
    Option (EdgeState K × List (Call K)) :=
  forLE (-g.half) g.half (⟨0, u32 (g.size + 1), []⟩, h) fun s y => do
    let s ← forLT (-g.half) g.half s fun s x =>
      forLE (-g.half) g.half s fun s z => edgeBodyH g u .X values mat s x y z
    some ({ s.1 with idx1 := u32 (s.1.idx1 + u32 (g.size + 1)), idx2 := u32 (s.1.idx2 + u32 (g.size + 1)) }, s.2)

/-- Y edge loop (grid.cpp:78-100). -/
def fillYH (g : Grid K) (u : UserCode K) (values : List K) (mat : List (Option Material)) (h : List (Call K)) :
    Option (EdgeState K × List (Call K)) :=
  forLT (-g.half) g.half (⟨0, u32 (u32 (g.size + 1) * u32 (g.size + 1)), []⟩, h) fun s y =>
    forLE (-g.half) g.half s fun s x =>
      forLE (-g.half) g.half s fun s z => edgeBodyH g u .Y values mat s x y z

/-- Z edge loop (grid.cpp:102-126). -/
def fillZH (g : Grid K) (u : UserCode K) (values : List K) (mat : List (Option Material)) (h : List (Call K)) :
    Option (EdgeState K × List (Call K)) :=
  forLE (-g.half) g.half (⟨0, 1, []⟩, h) fun s y =>
    forLE (-g.half) g.half s fun s x => do
      let s ← forLT (-g.half) g.half s fun s z => edgeBodyH g u .Z values mat s x y z
      some ({ s.1 with idx1 := u32 (s.1.idx1 + 1), idx2 := u32 (s.1.idx2 + 1) }, s.2)

/-- `fill` (grid.cpp:24-127) with any user code, when the calls `h` were made before; returns the grid and all calls made by now. -/
def Grid.fillH (g : Grid K) (u : UserCode K) (h : List (Call K)) : Option (Grid K × List (Call K)) := do
  let s ← fillValuesH g u h
  let ex ← fillXH g u s.1.values s.1.mat s.2
  let ey ← fillYH g u s.1.values s.1.mat ex.2
  let ez ← fillZH g u s.1.values s.1.mat ey.2
  some ({ g with mat := s.1.mat, edgeX := ex.1.edges, edgeY := ey.1.edges, edgeZ := ez.1.edges }, ez.2)

end
end Isomesh

namespace Isomesh

section
variable {K : Type} [Add K] [Sub K] [Mul K] [Div K] [Zero K] [One K] [OfNat K 2] [Fabs K] [LinearOrder K]

/-- The bisection loop (bisection_zero_finder.cpp:18-43) with a field that need not be a function: `ask seen c` is the answer at the point with
coordinate `c` (the other two coordinates do not change) after the evaluations `seen`.  Returns the result and all evaluations. -/
def bisectLoopH (ask : List K → K → K) : (n : Nat) → (seen : List K) → (c0 c1 f0 f1 : K) → K × List K
  | 0, seen, c0, c1, f0, f1 => (if fabs f0 ≤ fabs f1 then c0 else c1, seen)
  | n + 1, seen, c0, c1, f0, f1 =>
    let mid := (c0 + c1) * (1 / 2)
    let val := ask seen mid
    let seen := seen ++ [mid]
    if val * f0 > 0 then bisectLoopH ask n seen mid c1 val f1
    else if val * f1 > 0 then bisectLoopH ask n seen c0 mid f0 val
    else if fabs val ≤ min (fabs f0) (fabs f1) then (mid, seen)
    else if fabs f0 ≤ fabs f1 then (c0, seen)
    else (c1, seen)

/-- The regula falsi loop (regula_falsi_zero_finder.cpp:19-45) with a field that need not be a function; `mid` is the current result. -/
def rfLoopH (ask : List K → K → K) : (n : Nat) → (seen : List K) → (side : RFSide) → (mid c0 c1 f0 f1 : K) → Option (K × List K)
  | 0, seen, _, mid, _, _, _, _ => some (mid, seen)
  | n + 1, seen, side, _, c0, c1, f0, f1 =>
    if f1 - f0 = 0 then none
    else
      let mid := (c0 * f1 - c1 * f0) / (f1 - f0)
      let val := ask seen mid
      let seen := seen ++ [mid]
      if val * f0 > 0 then
        let f1 :=
          if side = .lo then
            let m := 1 - val / f0
            let m := if m ≤ 0 then 1 / 2 else m
            f1 * m
          else f1
        rfLoopH ask n seen .lo mid mid c1 val f1
      else if val * f1 > 0 then
        let f0 :=
          if side = .hi then
            let m := 1 - val / f1
            let m := if m ≤ 0 then 1 / 2 else m
            f0 * m
          else f0
        rfLoopH ask n seen .hi mid c0 mid f0 val
      else some (mid, seen)

end
end Isomesh
