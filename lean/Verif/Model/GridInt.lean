import Verif.Model.Grid

/-! The predicates of `UniformGrid` (src/data/grid.cpp) with `glm::abs` on 32 bit numbers.  `abs (INT_MIN)` overflows, which is undefined
behaviour; on the usual machines it wraps around and gives `INT_MIN` again, and this is what is modelled here. -/

namespace Isomesh

/-- `glm::abs` on `int32_t`, wrapping around (called at grid.cpp:165-169,175-179,189-246,312-364). -/
def wrapAbs (x : Int) : Int := if x = -2147483648 then -2147483648 else |x|

variable {K : Type}

/-- `isVertexInGrid` (grid.cpp:164-172). -/
def Grid.isVertexInGrid32 (g : Grid K) (p : IVec3) : Bool :=
  if wrapAbs p.x > g.half then false
  else if wrapAbs p.y > g.half then false
  else if wrapAbs p.z > g.half then false
  else true

/-- `isVertexOnBorder` (grid.cpp:174-182). -/
def Grid.isVertexOnBorder32 (g : Grid K) (p : IVec3) : Bool :=
  if wrapAbs p.x = g.half then true
  else if wrapAbs p.y = g.half then true
  else if wrapAbs p.z = g.half then true
  else false

/-- `isEdgeInGrid<D>` (grid.cpp:188-219). -/
def Grid.isEdgeInGrid32 (g : Grid K) (D : Axis) (p : IVec3) : Bool :=
  match D with
  | .X =>
    if p.x < -g.half ∨ p.x ≥ g.half then false
    else if wrapAbs p.y > g.half then false
    else if wrapAbs p.z > g.half then false
    else true
  | .Y =>
    if p.y < -g.half ∨ p.y ≥ g.half then false
    else if wrapAbs p.x > g.half then false
    else if wrapAbs p.z > g.half then false
    else true
  | .Z =>
    if p.z < -g.half ∨ p.z ≥ g.half then false
    else if wrapAbs p.x > g.half then false
    else if wrapAbs p.y > g.half then false
    else true

/-- `isEdgeOnBorder<D>` (grid.cpp:221-246). -/
def Grid.isEdgeOnBorder32 (g : Grid K) (D : Axis) (p : IVec3) : Bool :=
  match D with
  | .X => if wrapAbs p.y = g.half then true else if wrapAbs p.z = g.half then true else false
  | .Y => if wrapAbs p.x = g.half then true else if wrapAbs p.z = g.half then true else false
  | .Z => if wrapAbs p.x = g.half then true else if wrapAbs p.y = g.half then true else false

/-- `isFaceInGrid<D>` (grid.cpp:312-343). -/
def Grid.isFaceInGrid32 (g : Grid K) (D : Axis) (p : IVec3) : Bool :=
  match D with
  | .X =>
    if wrapAbs p.x > g.half then false
    else if p.y < -g.half ∨ p.y ≥ g.half then false
    else if p.z < -g.half ∨ p.z ≥ g.half then false
    else true
  | .Y =>
    if wrapAbs p.y > g.half then false
    else if p.x < -g.half ∨ p.x ≥ g.half then false
    else if p.z < -g.half ∨ p.z ≥ g.half then false
    else true
  | .Z =>
    if wrapAbs p.z > g.half then false
    else if p.x < -g.half ∨ p.x ≥ g.half then false
    else if p.y < -g.half ∨ p.y ≥ g.half then false
    else true

/-- `isFaceOnBorder<D>` (grid.cpp:345-364). -/
def Grid.isFaceOnBorder32 (g : Grid K) (D : Axis) (p : IVec3) : Bool :=
  match D with
  | .X => if wrapAbs p.x = g.half then true else false
  | .Y => if wrapAbs p.y = g.half then true else false
  | .Z => if wrapAbs p.z = g.half then true else false

/-- `pointToIndex` (grid.cpp:142-148) with the wrapping predicate in its assertion; `none` when the assertion fails. -/
def Grid.pointToIndex32 (g : Grid K) (p : IVec3) : Option Nat :=
  if g.isVertexInGrid32 p then
    let idx := u32 (toU32 (p.y + g.half) * u32 (g.size + 1))
    let idx := u32 (u32 (idx + toU32 (p.x + g.half)) * u32 (g.size + 1))
    some (u32 (idx + toU32 (p.z + g.half)))
  else none

end Isomesh
