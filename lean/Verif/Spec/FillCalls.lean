import Verif.Model.FillCalls
import Verif.Spec.Filled

/-! Specification of the calls of user code made by `fill`. -/

namespace Isomesh.Spec

variable {K : Type} [Add K] [Sub K] [Mul K] [Div K] [Zero K] [IntCast K] [LE K] [LT K] [DecidableLE K] [DecidableLT K]

/-- The integers from `-h` to `h`. -/
def coords (h : Int) : List Int := (List.range (2 * h + 1).toNat).map fun (i : Nat) => -h + i

/-- The grid points, z fastest, then x, then y. -/
def gridPoints (h : Int) : List IVec3 :=
  (coords h).flatMap fun y => (coords h).flatMap fun x => (coords h).map fun z => ⟨x, y, z⟩

/-- The lesser ends of the grid edges along `D`, in the same order. -/
def edgePoints (h : Int) (D : Axis) : List IVec3 := (gridPoints h).filter fun p => decide (InCube h (edgeEnd D p))

/-- The answers of user code during one `fill`: the value and material at every grid point, and for every edge the zero and the gradient
there. -/
structure Answers (K : Type) where
  value : IVec3 → K
  material : IVec3 → Material
  zero : Axis → IVec3 → K
  grad : Axis → IVec3 → Vec3 K

/-- The calls made for a grid point: its value; and its material, unless the value is positive. -/
def pointCalls (a : Answers K) (sample : IVec3 → Vec3 K) (p : IVec3) : List (Call K) :=
  .value (sample p) (a.value p) :: if a.value p > 0 then [] else [.material (sample p) (a.value p) (a.material p)]

/-- The answers tell that the edge crosses the surface. -/
def AnswersCross (a : Answers K) (D : Axis) (p : IVec3) : Prop := ¬ (a.value p ≤ 0 ↔ a.value (edgeEnd D p) ≤ 0)

instance (a : Answers K) (D : Axis) (p : IVec3) : Decidable (AnswersCross a D p) := by unfold AnswersCross; infer_instance

/-- The calls made for an edge: none, unless it crosses the surface; otherwise one for the zero, with the values already known, and one for
the gradient there. -/
def edgeCalls (a : Answers K) (pos : IVec3 → Vec3 K) (step : K) (D : Axis) (p : IVec3) : List (Call K) :=
  if AnswersCross a D p then
    [.find D (pos p) ((pos p).get D + step) (a.value p) (a.value (edgeEnd D p)) (a.zero D p),
     .grad ((pos p).set D (a.zero D p)) (a.grad D p)]
  else []

/-- The material of a grid point according to the answers. -/
def pointMaterial (a : Answers K) (p : IVec3) : Material := if a.value p > 0 then .Empty else a.material p

/-- The record of a crossing edge according to the answers. -/
def answerRecord (a : Answers K) (pos : IVec3 → Vec3 K) (step : K) (D : Axis) (p : IVec3) : GridEdge K :=
  { lesser := p
    gradient := a.grad D p
    offset := (a.zero D p - (pos p).get D) / step
    axis := D
    lesserSolid := decide (a.value p ≤ 0)
    material := if a.value p ≤ 0 then pointMaterial a p else pointMaterial a (edgeEnd D p) }

/-- All calls made by one `fill`, in order. -/
def fillCalls (h : Int) (a : Answers K) (sample pos : IVec3 → Vec3 K) (step : K) : List (Call K) :=
  (gridPoints h).flatMap (pointCalls a sample) ++ (edgePoints h .X).flatMap (edgeCalls a pos step .X) ++
    (edgePoints h .Y).flatMap (edgeCalls a pos step .Y) ++ (edgePoints h .Z).flatMap (edgeCalls a pos step .Z)

/-- The answer of this call is what the user code says after the calls `h`. -/
def Answered (u : UserCode K) (h : List (Call K)) : Call K → Prop
  | .value q v => v = u.value h q
  | .material q v m => m = u.material h q v
  | .find D a far v w c => c = u.find h D a far v w
  | .grad q d => d = u.grad h q

/-- A list of calls with the answers this user code gives, after the calls `h`. -/
def Conversation (u : UserCode K) (h cs : List (Call K)) : Prop :=
  ∀ pre c post, cs = pre ++ c :: post → Answered u (h ++ pre) c

/-- What kind of call it is. -/
def isValue : Call K → Bool | .value _ _ => true | _ => false
@[inherit_doc isValue] def isMaterial : Call K → Bool | .material _ _ _ => true | _ => false
@[inherit_doc isValue] def isFind : Call K → Bool | .find _ _ _ _ _ _ => true | _ => false
@[inherit_doc isValue] def isGrad : Call K → Bool | .grad _ _ => true | _ => false

/-- The point at which a value was asked. -/
def valueAt : Call K → Option (Vec3 K) | .value q _ => some q | _ => none

end Isomesh.Spec
