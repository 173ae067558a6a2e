import Verif.Basic

/-! Model of include/isomesh/util/zero_finder.hpp, src/util/bisection_zero_finder.cpp and
src/util/regula_falsi_zero_finder.cpp. Scalars are those of any type with the
arithmetic operations used (exact in most properties, rounded in C74). -/

namespace Isomesh

/-- `StepCountedZeroFinder::setStepCount` (zero_finder.hpp:46): `m_stepCount = max (1, steps)`. -/
def stepCount (steps : Int) : Nat := (max 1 steps).toNat

section
variable {K : Type} [Add K] [Sub K] [Mul K] [Div K] [Zero K] [One K] [OfNat K 2] [Fabs K] [LinearOrder K]

/-- The bisection loop with `n` iterations left (bisection_zero_finder.cpp:18-43). -/
def bisectLoop (f : ScalarField K) (C : Axis) (p : Vec3 K) : (n : Nat) → (c0 c1 f0 f1 : K) → K
  | 0, c0, c1, f0, f1 => if fabs f0 ≤ fabs f1 then c0 else c1
  | n + 1, c0, c1, f0, f1 =>
    let mid := (c0 + c1) * (1 / 2)
    let p := p.set C mid
    let val := f.value p
    if val * f0 > 0 then bisectLoop f C p n mid c1 val f1
    else if val * f1 > 0 then bisectLoop f C p n c0 mid f0 val
    else
      let val := fabs val
      let f0 := fabs f0
      let f1 := fabs f1
      if val ≤ min f0 f1 then mid
      else if f0 ≤ f1 then c0
      else c1

/-- `BisectionZeroFinder::findAlongC<C>` (bisection_zero_finder.cpp:11-44). -/
def bisectFind (steps : Int) (C : Axis) (x0 y0 z0 c1 f0 f1 : K) (f : ScalarField K) : K :=
  let p : Vec3 K := ⟨x0, y0, z0⟩
  bisectLoop f C p (stepCount steps) (p.get C) c1 f0 f1

/-- `BisectionZeroFinder` (bisection_zero_finder.cpp:46-62). -/
def bisectionFinder (steps : Int) : ZeroFinder K where
  findAlongX := fun x0 y0 z0 x1 f0 f1 f => bisectFind steps .X x0 y0 z0 x1 f0 f1 f
  findAlongY := fun x0 y0 z0 y1 f0 f1 f => bisectFind steps .Y x0 y0 z0 y1 f0 f1 f
  findAlongZ := fun x0 y0 z0 z1 f0 f1 f => bisectFind steps .Z x0 y0 z0 z1 f0 f1 f

/-- Which end was replaced last: `side` in regula_falsi_zero_finder.cpp:17 (0, -1, +1). -/
inductive RFSide | none | lo | hi
  deriving DecidableEq

/-- The regula falsi loop with `n` iterations left (regula_falsi_zero_finder.cpp:19-45).  Instrumented: it returns the
list of points `mid` at which the field is evaluated, in order; the C++ function returns the last `mid`.
Division by `f1 - f0`: if it is zero the C++ result is not a number; modelled as `none`. -/
def rfLoop (f : ScalarField K) (C : Axis) (p : Vec3 K) : (n : Nat) → (side : RFSide) → (c0 c1 f0 f1 : K) →
    Option (List K)
  | 0, _, _, _, _, _ => some []
  | n + 1, side, c0, c1, f0, f1 =>
    if f1 - f0 = 0 then none
    else
      let mid := (c0 * f1 - c1 * f0) / (f1 - f0)
      let p := p.set C mid
      let val := f.value p
      if val * f0 > 0 then
        let f1 :=
          if side = .lo then
            let m := 1 - val / f0
            let m := if m ≤ 0 then 1 / 2 else m
            f1 * m
          else f1
        (rfLoop f C p n .lo mid c1 val f1).map (mid :: ·)
      else if val * f1 > 0 then
        let f0 :=
          if side = .hi then
            let m := 1 - val / f1
            let m := if m ≤ 0 then 1 / 2 else m
            f0 * m
          else f0
        (rfLoop f C p n .hi c0 mid f0 val).map (mid :: ·)
      else some [mid]

/-- Points at which `RegulaFalsiZeroFinder::findAlongC<C>` evaluates the field. -/
def rfSamples (steps : Int) (C : Axis) (x0 y0 z0 c1 f0 f1 : K) (f : ScalarField K) : Option (List K) :=
  let p : Vec3 K := ⟨x0, y0, z0⟩
  rfLoop f C p (stepCount steps) .none (p.get C) c1 f0 f1

/-- `RegulaFalsiZeroFinder::findAlongC<C>` (regula_falsi_zero_finder.cpp:11-47): the last `mid`, initially `c0`. -/
def rfFind (steps : Int) (C : Axis) (x0 y0 z0 c1 f0 f1 : K) (f : ScalarField K) : Option K :=
  (rfSamples steps C x0 y0 z0 c1 f0 f1 f).map fun l => l.getLastD ((⟨x0, y0, z0⟩ : Vec3 K).get C)

/-- `RegulaFalsiZeroFinder` (regula_falsi_zero_finder.cpp:49-65); `nan` stands for the result of a division by zero. -/
def regulaFalsiFinder (nan : K) (steps : Int) : ZeroFinder K where
  findAlongX := fun x0 y0 z0 x1 f0 f1 f => (rfFind steps .X x0 y0 z0 x1 f0 f1 f).getD nan
  findAlongY := fun x0 y0 z0 y1 f0 f1 f => (rfFind steps .Y x0 y0 z0 y1 f0 f1 f).getD nan
  findAlongZ := fun x0 y0 z0 z1 f0 f1 f => (rfFind steps .Z x0 y0 z0 z1 f0 f1 f).getD nan

end
end Isomesh
