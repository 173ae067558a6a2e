import Verif.Model.DmcOctree
import Verif.Spec.DcOctree
import Verif.Props.Tables

/-! Specification vocabulary for the dual marching cubes octree: the grid dual to the octree and the surface mesh on it. -/

namespace Isomesh.Spec

set_option linter.unusedSectionVars false
variable {K : Type} [Add K] [_root_.Sub K] [Mul K] [Div K] [Neg K] [Zero K] [One K] [OfNat K 2] [OfScientific K] [NatCast K] [IntCast K]
  [Fabs K] [Elem K] [LinearOrder K]

/-- A leaf with the cube it occupies. -/
abbrev DmcCell (K : Type) := Cube × DmcLeaf K

/-- Different leaves are different objects in memory. -/
def DistinctAddresses (t : DmcNode K) (c : Cube) : Prop :=
  ∀ A ∈ (locate t c).leaves, ∀ B ∈ (locate t c).leaves, A.2.addr = B.2.addr → A = B

/-- The octant `j` is next to the octant `i` in the positive direction of the axis `D`. -/
def NextOctant (D : Axis) (i j : Fin 8) : Prop :=
  ∀ a, (octOff j).get a = (octOff i).get a + if a = D then 1 else 0

/-- An edge of the dual grid: `A` and `B` are the leaves in two neighbouring octants around an interior vertex of the
octree, `B` on the positive side of `A`. -/
def DualEdge (t : DmcNode K) (c : Cube) (A B : DmcCell K) : Prop :=
  ∃ p q D i j, MinimalVertex t c p q ∧ NextOctant D i j ∧ A = q i ∧ B = q j

/-- The dual vertex of one leaf is inside (non-positive value), that of the other outside. -/
def SignChange (A B : DmcLeaf K) : Prop := (A.w ≤ 0 ∧ 0 < B.w) ∨ (0 < A.w ∧ B.w ≤ 0)

/-- The point `(1 - s) a + s b`. -/
def between (s : ℝ) (a b : Vec3 ℝ) : Vec3 ℝ :=
  ⟨(1 - s) * a.x + s * b.x, (1 - s) * a.y + s * b.y, (1 - s) * a.z + s * b.z⟩

/-- `s` is the parameter of the zero of the linear interpolant of the values at the dual vertices of `A` and `B`. -/
def ZeroParam (A B : DmcLeaf ℝ) (s : ℝ) : Prop := (0 ≤ s ∧ s ≤ 1) ∧ (1 - s) * A.w + s * B.w = 0

/-- `v` is the mesh vertex that belongs to the dual edge from `A` to `B`: the zero of the linear interpolant between the
two dual vertices, with the normal interpolated in the same way. -/
def DmcVertexOf (normalize : Vec3 ℝ → Vec3 ℝ) (A B : DmcLeaf ℝ) (v : MeshVertex ℝ) : Prop :=
  ∃ s, ZeroParam A B s ∧ v.position = between s A.vertex B.vertex ∧ v.normal = normalize (between s A.normal B.normal)

/-- The leaf of the dual cell `q` at end `k` of the cell edge `e` (cell edges as in `kCellEdgeEndpoint`, see C14). -/
def slotCell {α : Type} (q : Fin 8 → α) (e k : Nat) : α := q (Fin.ofNat 8 (Isomesh.edgeCorner e k))

/-- The corner pattern of a dual cell: bit `i` tells that the dual vertex in octant `i` is inside. -/
noncomputable def dualMask (q : Fin 8 → DmcCell K) : Nat :=
  open scoped Classical in maskOf (fun c => decide ((q (Fin.ofNat 8 c)).2.w ≤ 0)) 8

/-- Number of the vertex of cell edge `e` of the dual cell `q` in the list `E` of dual edges. -/
noncomputable def dualVertexId (E : List (DmcCell K × DmcCell K)) (q : Fin 8 → DmcCell K) (e : Nat) : Nat :=
  open scoped Classical in E.findIdx fun x => decide (x = (slotCell q e 0, slotCell q e 1))

/-- The triangles of one dual cell: those of the marching cubes table without the degenerate ones. -/
noncomputable def dualTriangles (E : List (DmcCell K × DmcCell K)) (q : Fin 8 → DmcCell K) : List (Nat × Nat × Nat) :=
  ((mcTriangles (dualMask q)).map fun t => (dualVertexId E q t.1, dualVertexId E q t.2.1, dualVertexId E q t.2.2)).filter
    fun t => decide (t.1 ≠ t.2.1 ∧ t.2.1 ≠ t.2.2 ∧ t.1 ≠ t.2.2)

/-- The mesh `r` is a surface on the dual grid of the octree `t` placed in the cube `c`: one vertex for each dual edge
with a sign change (`E` lists them), and the triangles of each dual cell, one dual cell for each interior vertex of the
octree (`visits` lists them). -/
structure DmcTopology (t : DmcNode K) (c : Cube) (mesh : Mesh K) (E : List (DmcCell K × DmcCell K))
    (visits : List (IVec3 × (Fin 8 → DmcCell K))) : Prop where
  edges_nodup : E.Nodup
  edges : ∀ A B, (A, B) ∈ E ↔ DualEdge t c A B ∧ SignChange A.2 B.2
  vertex_count : mesh.vertices.length = E.length
  materials : ∀ (v : Nat) (A B : DmcCell K) (m : Material), E[v]? = some (A, B) → A.2.material = some m → m ≠ .Empty →
    ∃ V, mesh.vertices[v]? = some V ∧ V.material = m
  visits_nodup : (visits.map (·.1)).Nodup
  visits_iff : ∀ p q, (p, q) ∈ visits ↔ MinimalVertex t c p q
  triangles : mesh.indices = (visits.flatMap fun v => dualTriangles E v.2).flatMap fun t => [t.1, t.2.1, t.2.2]

/-- In exact arithmetic, moreover, the vertices are the zeros of the linear interpolants along the dual edges. -/
structure DmcMesh (normalize : Vec3 ℝ → Vec3 ℝ) (t : DmcNode ℝ) (c : Cube) (mesh : Mesh ℝ) (E : List (DmcCell ℝ × DmcCell ℝ))
    (visits : List (IVec3 × (Fin 8 → DmcCell ℝ))) : Prop extends DmcTopology t c mesh E visits where
  vertices : ∀ (v : Nat) (A B : DmcCell ℝ), E[v]? = some (A, B) →
    ∃ V, mesh.vertices[v]? = some V ∧ DmcVertexOf normalize A.2 B.2 V

/-- The cube touches the boundary of `c`. -/
def Cube.TouchesBoundary (a c : Cube) : Prop := ∃ x : Axis, a.lo.get x = c.lo.get x ∨ a.lo.get x + a.side = c.lo.get x + c.side

/-- The cube touches the lower or upper side of `c` along the axis `x`. -/
def Cube.TouchesSide (a c : Cube) (x : Axis) (top : Bool) : Prop :=
  if top = true then a.lo.get x + a.side = c.lo.get x + c.side else a.lo.get x = c.lo.get x

/-- A material read for the vertex of a dual edge has been written: that of the lower leaf and, if this says `Empty`,
that of the upper leaf. -/
def MaterialsWritten (A B : DmcLeaf K) : Prop := A.material ≠ none ∧ (A.material = some .Empty → B.material ≠ none)

/-! ### Building -/

/-- The planes added for the sample offsets `offs` of the cell with lower corner `lo`: tangent planes of the graph of the
field (in local coordinates) at the sample points. -/
noncomputable def samplePlanes {R : Type} (a : DmcArgs K R) (lo : IVec3) (offs : List (Vec3 K)) : List (QefOp K 4) :=
  offs.map fun off => .addPlane (dmcPoint a lo off) (vec4 (dmcGrad a lo off) (-1))

/-- The error of a dual vertex `v` with value `w`: sum over the sample points `P` of the squared difference of `w` and the
linear prediction `f (P) / scale + grad f (P) (v - P)`. -/
noncomputable def fitError {R : Type} (a : DmcArgs ℝ R) (lo : IVec3) (offs : List (Vec3 ℝ)) (v : Vec3 ℝ) (w : ℝ) : ℝ :=
  (offs.map fun off =>
    let P : Vec3 ℝ := lo.toReal.add off
    let g := a.field.grad (a.oct.localToGlobal P)
    (a.field.value (a.oct.localToGlobal P) / a.oct.globalScale + (g.x * (v.x - P.x) + g.y * (v.y - P.y) + g.z * (v.z - P.z)) -
      w) ^ 2).sum

/-- The vertex and value of the cell `c` come from the solver: after the sample planes it is asked for a solution in the cell with value zero;
if the error of that exceeds the bound, it is asked again with the value between `lowest` and `highest`. -/
def DmcSolution {R : Type} (a : DmcArgs K R) (options : Qef K 4) (c : Cube) (offs : List (Vec3 K)) (l : DmcLeaf K) (ok : Bool) : Prop :=
  ∃ q1 q2 x2 e2, runOps qef4Rows 29 a.env.tiny options.reset (samplePlanes a c.lo offs) = some q1 ∧
    q1.solve qef4Rows a.env.tiny (vec4 c.lo.toReal 0) (vec4 (upperCorner c.lo c.k).toReal 0) = some (q2, x2) ∧
    q2.eval qef4Rows x2 = some e2 ∧
    ((e2 ≤ a.epsilon ∧ ok = true ∧ vec4 l.vertex l.w = x2) ∨
      (a.epsilon < e2 ∧ ∃ q3 e3, q2.solve qef4Rows a.env.tiny (vec4 c.lo.toReal a.env.lowest)
        (vec4 (upperCorner c.lo c.k).toReal a.env.highest) = some (q3, vec4 l.vertex l.w) ∧ q3.eval qef4Rows (vec4 l.vertex l.w) = some e3 ∧
        (ok = true ↔ e3 ≤ a.epsilon)))

/-- The leaf `l` is what the cell `c` gets for the sample offsets `offs`; `ok` tells whether its error is accepted. -/
structure DmcLeafOK {R : Type} (a : DmcArgs K R) (options : Qef K 4) (c : Cube) (offs : List (Vec3 K)) (l : DmcLeaf K) (ok : Bool) :
    Prop where
  addr : l.addr = a.env.addr c.lo c.k
  inside : c.ClosedR l.vertex
  solution : DmcSolution a options c offs l ok
  value : l.w = 0 ∨ (a.env.lowest ≤ a.env.highest → a.env.lowest ≤ l.w ∧ l.w ≤ a.env.highest)
  normal : l.normal = a.env.normalize ((offs.map fun off => a.field.grad (a.oct.localToGlobal (c.lo.toReal.add off))).foldl
    Vec3.add ⟨0, 0, 0⟩)
  written : l.w ≤ 0 → l.material = some (a.field.material (a.oct.localToGlobal l.vertex) (l.w * a.oct.globalScale))
  unwritten : 0 < l.w → l.material = none

/-- The sample offsets: eight fixed ones, a quarter of the side from the faces, or some numbers drawn. -/
def SampleOffsets {R : Type} (a : DmcArgs K R) (k : Nat) (offs : List (Vec3 K)) : Prop :=
  if a.flags.randomSampling = true then ∃ r, offs = (dmcDraws a.env k ⌊6 * Real.sqrt (2 ^ k)⌋₊ r).1
  else ∃ mn mx : K, mn = 0.25 * ((2 ^ k : Int) : K) ∧ mx = ((2 ^ k : Int) : K) - mn ∧
    offs = [⟨mn, mn, mn⟩, ⟨mn, mn, mx⟩, ⟨mx, mn, mn⟩, ⟨mx, mn, mx⟩, ⟨mn, mx, mn⟩, ⟨mn, mx, mx⟩, ⟨mx, mx, mn⟩, ⟨mx, mx, mx⟩]

/-- Why a cell of the tree is not subdivided. -/
def LeafReason {R : Type} (a : DmcArgs K R) (c : Cube) (ok : Bool) : Prop :=
  c.k = 0 ∨ (a.flags.earlyStop = true ∧ dmcShouldStop a c.lo c.k = true) ∨
  (a.flags.simpleSplit = true ∧ c.k ≠ a.oct.level ∧ dmcShouldSplit a c.lo c.k = false) ∨
  (a.flags.simpleSplit = false ∧ c.k + 3 < a.oct.level ∧ ok = true)

/-- Why a cell of the tree is subdivided. -/
def SplitReason {R : Type} (a : DmcArgs K R) (options : Qef K 4) (c : Cube) : Prop :=
  0 < c.k ∧ ¬ (a.flags.earlyStop = true ∧ dmcShouldStop a c.lo c.k = true) ∧
  (a.flags.simpleSplit = true → c.k = a.oct.level ∨ dmcShouldSplit a c.lo c.k = true) ∧
  (a.flags.simpleSplit = false → a.oct.level ≤ c.k + 3 ∨
    ∃ offs l, SampleOffsets a c.k offs ∧ DmcLeafOK a options c offs l false)

/-- The tree in the cube `c` is a refinement for the field with the chosen options: each leaf has the data of its cell and
a reason to be a leaf, each inner node has a reason to be subdivided. -/
def DmcTreeOK {R : Type} (a : DmcArgs K R) (options : Qef K 4) : DmcNode K → Cube → Prop
  | .leaf l, c => ∃ offs ok, SampleOffsets a c.k offs ∧ DmcLeafOK a options c offs l ok ∧ LeafReason a c ok
  | .inner _ ch, c => SplitReason a options c ∧ ∀ i, DmcTreeOK a options (ch i) (c.octant i)

/-! ### Splitting criteria -/

/-- The point of the cell `c` with relative coordinates `u` (`0` at the lower corner, `1` at the upper), in global
coordinates. -/
def cellPoint (o : DmcOctree ℝ) (c : Cube) (u : Vec3 ℝ) : Vec3 ℝ :=
  o.localToGlobal ⟨c.lo.x + 2 ^ c.k * u.x, c.lo.y + 2 ^ c.k * u.y, c.lo.z + 2 ^ c.k * u.z⟩

/-- Trilinear interpolation of the values of a field at the corners of the cell `c`. -/
noncomputable def trilinear (o : DmcOctree ℝ) (f : Vec3 ℝ → ℝ) (c : Cube) (u : Vec3 ℝ) : ℝ :=
  ∑ x : Fin 2, ∑ y : Fin 2, ∑ z : Fin 2, (if x = 1 then u.x else 1 - u.x) * (if y = 1 then u.y else 1 - u.y) *
    (if z = 1 then u.z else 1 - u.z) * f (cellPoint o c ⟨x.val, y.val, z.val⟩)

/-- Error of the interpolation at the point with relative coordinates `u`, divided by the length of the gradient there if
this is greater than 1. -/
noncomputable def interpolationError (o : DmcOctree ℝ) (field : ScalarField ℝ) (c : Cube) (u : Vec3 ℝ) : ℝ :=
  |trilinear o field.value c u - field.value (cellPoint o c u)| / max 1 (vecLength (field.grad (cellPoint o c u)))

/-- Sum of the interpolation errors over the midpoints of the edges, of the faces and of the cell: the points with relative
coordinates in `{0, 1/2, 1}` other than the corners. -/
noncomputable def midpointError (o : DmcOctree ℝ) (field : ScalarField ℝ) (c : Cube) : ℝ :=
  ∑ x : Fin 3, ∑ y : Fin 3, ∑ z : Fin 3, if x = 1 ∨ y = 1 ∨ z = 1 then
    interpolationError o field c ⟨x.val / 2, y.val / 2, z.val / 2⟩ else 0

/-- The field changes by at most the distance. -/
def OneLipschitz (f : Vec3 ℝ → ℝ) : Prop :=
  ∀ p q : Vec3 ℝ, |f p - f q| ≤ Real.sqrt ((p.x - q.x) ^ 2 + (p.y - q.y) ^ 2 + (p.z - q.z) ^ 2)

end Isomesh.Spec
