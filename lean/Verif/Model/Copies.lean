import Verif.Model.DcNodeMem
import Verif.Model.ArrNodeMem

/-! Copies of octree objects.  The classes `DC_Octree`, `MDC_Octree` and `DMC_Octree` (dc_octree.hpp:17-51, mdc_octree.hpp,
dmc_octree.hpp) declare no copy constructor, so the implicit one is used; it copies the root node member by member
(dc_octree_node.hpp:17-45, mdc_octree_node.hpp:34-70, dmc_octree_node.hpp:13-32 declare none either), pointers to children
included.  (Their members `m_globalPos`, `m_globalScale` are `const`, so there is no copy assignment.)  The nodes declare a
destructor, so moving an octree copies its root, too.  The vectors in an MDC node are copied deeply and free their own memory;
as in `Verif.Model.ArrNodeMem` they are left out. -/

namespace Isomesh

/-- Copy construction of a `DC_Octree` whose root node is at `r`; the root of the new object is at the next address. -/
def rawCopy (r : Nat) (s : RawState) : Option RawState :=
  match s.mem r with
  | none => none
  | some n => some { s with mem := Function.update s.mem s.next (some n), next := s.next + 1 }

/-- Copy construction of an `MDC_Octree` or `DMC_Octree` whose root node is element 0 of block `r`; the new root is element 0 of the next block. -/
def arrCopy {N : Type} (r : Nat) (s : ArrState N) : Option (ArrState N) :=
  match s.mem r with
  | none => none
  | some ns => some { s with mem := Function.update s.mem s.next (some fun _ => ns 0), next := s.next + 1 }

end Isomesh
