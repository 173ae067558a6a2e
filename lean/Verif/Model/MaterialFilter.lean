import Verif.Basic

/-! Model of the material filters (include/isomesh/util/material_filter.hpp, src/util/material_filter.cpp). -/

namespace Isomesh

/-- `MaterialFilterFast` (material_filter.hpp:41-62). -/
structure FilterFast where
  candidate : Material
  count : Nat
  deriving DecidableEq, Repr

namespace FilterFast

/-- Constructor / `reset` (material_filter.hpp:43, 52-55). -/
def new : FilterFast := ⟨.Empty, 0⟩

/-- `add (Material)` (material_filter.cpp:22-33); `m_count` is a `uint32_t`. -/
def add (f : FilterFast) (mat : Material) : FilterFast :=
  if mat = .Empty then f
  else if mat = f.candidate then ⟨f.candidate, u32 (f.count + 1)⟩
  else if f.count > 1 then ⟨f.candidate, u32sub f.count 1⟩
  else ⟨mat, 1⟩

/-- `add (const std::array<Material, 8> &)` (material_filter.hpp:46-49); any list of materials here. -/
def addMany (f : FilterFast) (mats : List Material) : FilterFast := mats.foldl add f

/-- `add (const MaterialFilterFast &)` (material_filter.cpp:35-44). -/
def merge (f g : FilterFast) : FilterFast :=
  if f.candidate = g.candidate then ⟨f.candidate, u32 (f.count + g.count)⟩
  else if f.count > g.count then ⟨f.candidate, u32sub f.count g.count⟩
  else ⟨g.candidate, max 1 (u32sub g.count f.count)⟩

/-- `select` (material_filter.hpp:56). -/
def select (f : FilterFast) : Material := f.candidate

end FilterFast

/-- `MaterialFilterPrecise` (material_filter.hpp:21-39): one `uint32_t` counter per material. -/
structure FilterPrecise where
  counts : Material → Nat

namespace FilterPrecise

/-- Constructor / `reset` (material_filter.hpp:23, 35). -/
def new : FilterPrecise := ⟨fun _ => 0⟩

/-- `add (Material)` (material_filter.hpp:25). -/
def add (f : FilterPrecise) (mat : Material) : FilterPrecise :=
  ⟨fun m => if m = mat then u32 (f.counts m + 1) else f.counts m⟩

/-- `add (const std::array<Material, 8> &)` (material_filter.hpp:26-29). -/
def addMany (f : FilterPrecise) (mats : List Material) : FilterPrecise := mats.foldl add f

/-- `add (const MaterialFilterPrecise &)` (material_filter.hpp:30-33). -/
def merge (f g : FilterPrecise) : FilterPrecise := ⟨fun m => u32 (f.counts m + g.counts m)⟩

/-- `std::max_element` over the counters: the first position with the largest value. -/
def maxElement (c : Material → Nat) (best : Material) : List Material → Material
  | [] => best
  | m :: ms => if c best < c m then maxElement c m ms else maxElement c best ms

/-- `select` (material_filter.cpp:13-20): `begin () + 1` excludes `Empty`. -/
def select (f : FilterPrecise) : Material :=
  let it := maxElement f.counts .Solid [.Stone, .Soil]
  if f.counts it = 0 then .Empty else it

end FilterPrecise
end Isomesh
