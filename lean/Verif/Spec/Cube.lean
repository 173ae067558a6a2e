import Verif.Basic
import Mathlib.Logic.Relation

/-! Geometry of the unit cube, independent of the tables.  Corners are numbered 0..7, `z` being bit 0,
`x` bit 1 and `y` bit 2; a corner pattern is a number `m < 256` whose bit `c` tells that corner `c` is
solid. -/

namespace Isomesh
namespace Spec

/-- Coordinates (0 or 1) of a corner. -/
def cornerPos (c : Nat) : IVec3 := ⟨((c / 2 % 2 : Nat) : Int), ((c / 4 % 2 : Nat) : Int), ((c % 2 : Nat) : Int)⟩

/-- Corner `c` is solid in pattern `m`. -/
def solid (m c : Nat) : Bool := m.testBit c

/-- Two corners are joined by an edge of the cube: they differ in exactly one coordinate. -/
def adjacentCorners (c d : Nat) : Bool :=
  (c < 8 && d < 8) && ((c ^^^ d) == 1 || (c ^^^ d) == 2 || (c ^^^ d) == 4)

/-- Corners of one kind (solid or empty) form one connected piece along cube edges. -/
def CornersConnected (m : Nat) (kind : Bool) : Prop :=
  ∀ c < 8, ∀ d < 8, solid m c = kind → solid m d = kind →
    Relation.ReflTransGen (fun a b => adjacentCorners a b = true ∧ solid m a = kind ∧ solid m b = kind) c d

end Spec
end Isomesh
