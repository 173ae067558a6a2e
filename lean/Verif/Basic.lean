import Mathlib.Algebra.Order.Field.Basic
import Mathlib.Tactic.Ring
import Mathlib.Tactic.Linarith

/-! Common definitions. -/

namespace Isomesh

/-- `enum class Material : uint8_t` (include/isomesh/common.hpp:18-25). `Count` is "not a material" and is
left out. -/
inductive Material
  | Empty | Solid | Stone | Soil
  deriving DecidableEq, Repr, Inhabited

/-- `kBadIndex` (include/isomesh/common.hpp:28). -/
def kBadIndex : Nat := 4294967295

/-- `glm::ivec3`.  `int32_t` components are modelled by `Int`. -/
structure IVec3 where
  x : Int
  y : Int
  z : Int
  deriving DecidableEq, Repr, Inhabited

/-- `glm::dvec3` / `glm::vec3` with components in an arbitrary scalar type. -/
@[ext] structure Vec3 (K : Type) where
  x : K
  y : K
  z : K
  deriving DecidableEq, Repr

/-- The three coordinate axes; template parameter `D`/`C` and `axis` in GLM order (X=0, Y=1, Z=2). -/
inductive Axis
  | X | Y | Z
  deriving DecidableEq, Repr, Inhabited

/-- `std::get<C>` / `operator[]` on a GLM vector (include/isomesh/common.hpp:37-79). -/
def Vec3.get {K : Type} (v : Vec3 K) : Axis → K
  | .X => v.x
  | .Y => v.y
  | .Z => v.z

/-- Assignment through `std::get<C>` / `operator[]` on a GLM vector. -/
def Vec3.set {K : Type} (v : Vec3 K) (a : Axis) (c : K) : Vec3 K :=
  match a with
  | .X => { v with x := c }
  | .Y => { v with y := c }
  | .Z => { v with z := c }

/-- Component of an integer vector. -/
def IVec3.get (v : IVec3) : Axis → Int
  | .X => v.x
  | .Y => v.y
  | .Z => v.z

/-- Result of a 32-bit unsigned computation: arithmetic modulo 2^32. -/
def u32 (n : Nat) : Nat := n % 4294967296

/-- 32-bit unsigned subtraction (wraps around). -/
def u32sub (a b : Nat) : Nat := (a + (4294967296 - b % 4294967296)) % 4294967296

/-- Conversion `uint32_t (i)` of a signed value (modulo 2^32). -/
def toU32 (i : Int) : Nat := (i % 4294967296).toNat

/-- `for (int32_t v = lo; v < hi; v++) body`, body may fail (`none` = undefined behaviour). -/
def forLT {σ : Type} (lo hi : Int) (s : σ) (body : σ → Int → Option σ) : Option σ :=
  (List.range (hi - lo).toNat).foldlM (fun s (i : Nat) => body s (lo + i)) s

/-- `for (int32_t v = lo; v <= hi; v++) body`. -/
def forLE {σ : Type} (lo hi : Int) (s : σ) (body : σ → Int → Option σ) : Option σ :=
  forLT lo (hi + 1) s body

/-- Array write; out of bounds is undefined behaviour (`none`). -/
def write {α : Type} (l : List α) (i : Nat) (v : α) : Option (List α) :=
  if i < l.length then some (l.set i v) else none

/-- `fabs` / `std::abs` on a scalar type. -/
class Fabs (K : Type) where
  fabs : K → K

export Fabs (fabs)

/-- `fabs` in exact arithmetic. -/
instance {K : Type} [Lattice K] [AddGroup K] : Fabs K := ⟨fun x => |x|⟩

theorem fabs_abs {K : Type} [Lattice K] [AddGroup K] (x : K) : fabs x = |x| := rfl

/-- Abstract scalar field (include/isomesh/field/scalar_field.hpp:22-64): user code, an arbitrary triple
of functions.  `noexcept` and `const`, hence pure. -/
structure ScalarField (K : Type) where
  value : Vec3 K → K
  grad : Vec3 K → Vec3 K
  material : Vec3 K → K → Material

/-- Abstract zero finder (include/isomesh/util/zero_finder.hpp:19-36). -/
structure ZeroFinder (K : Type) where
  findAlongX : (x0 y0 z0 x1 f0 f1 : K) → ScalarField K → K
  findAlongY : (x0 y0 z0 y1 f0 f1 : K) → ScalarField K → K
  findAlongZ : (x0 y0 z0 z1 f0 f1 : K) → ScalarField K → K

end Isomesh
