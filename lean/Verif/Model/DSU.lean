import Verif.Basic

/-! Model of `DisjointSetUnion<T>` (src/private/disjoint_set_union.hpp). -/

namespace Isomesh

/-- Members `m_parent`, `m_size` (src/private/disjoint_set_union.hpp:69-70). The element type `T` is an
unsigned integer type; its values are modelled by `Nat` (C30 bounds all stored values by the number of
items, so nothing overflows as long as the item count fits `T`). -/
structure DSU where
  parent : List Nat
  size : List Nat
  deriving Repr, DecidableEq

namespace DSU

/-- Constructor (disjoint_set_union.hpp:15-20): element `i` becomes its own parent, sizes are one. -/
def mk' (n : Nat) : DSU := ⟨List.range n, List.replicate n 1⟩

/-- `size ()` (disjoint_set_union.hpp:22). -/
def count (d : DSU) : Nat := d.parent.length

/-- `expand` (disjoint_set_union.hpp:24-38): does nothing when not growing; new items are singletons. -/
def expand (d : DSU) (newSize : Nat) : DSU :=
  if newSize ≤ d.count then d
  else
    ⟨d.parent ++ (List.range (newSize - d.count)).map (fun k => d.count + k),
     d.size ++ List.replicate (newSize - d.count) 1⟩

/-- `addSet` (disjoint_set_union.hpp:40-43). -/
def addSet (d : DSU) : DSU × Nat :=
  let d' := d.expand (d.count + 1)
  (d', d'.count - 1)

/-- `getSetLeader` (disjoint_set_union.hpp:45-50), with path compression.  The recursion is unbounded, as in
the code (least fixed point): `none` means an out-of-range access (the failed assertion) or divergence. -/
def getSetLeader (d : DSU) (item : Nat) : Option (DSU × Nat) :=
  match d.parent[item]? with
  | none => none
  | some p =>
    if p = item then some (d, item)
    else do
      let r ← getSetLeader d p
      let ps ← write r.1.parent item r.2
      some (⟨ps, r.1.size⟩, r.2)
partial_fixpoint

/-- `mergeSets` (disjoint_set_union.hpp:52-65). -/
def mergeSets (d : DSU) (a b : Nat) : Option DSU := do
  let ra ← d.getSetLeader a
  let rb ← ra.1.getSetLeader b
  let d := rb.1
  if ra.2 = rb.2 then some d
  else do
    let sa ← d.size[ra.2]?
    let sb ← d.size[rb.2]?
    if sa < sb then do
      let ps ← write d.parent ra.2 rb.2
      let ss ← write d.size rb.2 (sb + sa)
      some ⟨ps, ss⟩
    else do
      let ps ← write d.parent rb.2 ra.2
      let ss ← write d.size ra.2 (sa + sb)
      some ⟨ps, ss⟩

/-- `areInSameSet` (disjoint_set_union.hpp:67). -/
def areInSameSet (d : DSU) (a b : Nat) : Option (DSU × Bool) := do
  let ra ← d.getSetLeader a
  let rb ← ra.1.getSetLeader b
  some (rb.1, decide (ra.2 = rb.2))

/-- One public call on the structure. -/
inductive Op
  | expand (n : Nat)
  | addSet
  | leader (item : Nat)
  | merge (a b : Nat)
  | same (a b : Nat)

/-- Effect of one public call on the state. -/
def step (d : DSU) : Op → Option DSU
  | .expand n => some (d.expand n)
  | .addSet => some d.addSet.1
  | .leader i => (d.getSetLeader i).map (·.1)
  | .merge a b => d.mergeSets a b
  | .same a b => (d.areInSameSet a b).map (·.1)

/-- A history of calls on a structure constructed with `n` items. -/
def run (n : Nat) (ops : List Op) : Option DSU := ops.foldlM step (mk' n)

end DSU
end Isomesh
