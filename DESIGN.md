# Formal model of Svenny/isomesh in Lean 4 — design

## Layout
* `lean/Verif/Model/*`  – model of the C++ code, function by function; every definition cites file:lines.
* `lean/Verif/Spec/*`   – small independent specifications (geometry, surfaces, equivalence closures, ...).
* `lean/Verif/Proofs/*` – helper lemmas.
* `lean/Verif/Props/*`  – the property theorems (named `C01_...`), each with an `example` showing that a concrete non-trivial case meets the hypotheses.

## Modelling conventions
* `uint32_t` values are `Nat` with explicit `% 2^32` where the C++ arithmetic may wrap.
* `int32_t` values are `Int`; places where signed overflow / `abs(INT_MIN)` would be undefined are stated as preconditions.
* `double`/`float` values are elements of a scalar type `K`. The models of grids, edge storages, zero finders, marching cubes, the QEF
  solvers (Householder rows, Jacobi sweeps, clamping), uniform DC, the DC, MDC and DMC octrees and `MDC` rebuilds are written for ANY type
  with the arithmetic operations, `fabs`, decimal constants, integer conversion, a linear order and (where the code calls `<cmath>`) the
  class `Elem K` of `sqrt`, `atan`, `sin`, `cos`, without assuming any law of arithmetic; sums are evaluated left to right as in the code.
  Theorems that do not speak about exact positions are proved at that generality: grids, storages and marching cubes without any law
  (C02–C05, C09, C10, C14–C16, C72, C73), QEF options, DC, MDC and DMC (C18–C20, C22–C29, C50, C53, C58–C62, C72) for every `K` with the
  eight weak laws of `RoundedLaws K` (`Arith.lean`: integer conversion is monotone, division by a positive number is monotone, a sum of
  squares is not negative, ...). `Proofs/FloatLaws.lean` proves these laws for `Fl F`, the numbers of any floating point format with
  any monotone rounding (`Model/Float.lean`), so these theorems hold for rounded arithmetic (C75). Other theorems are for an ordered field
  or `ℝ`: exact arithmetic, where `double -> float` conversions are the identity. Conversions in rounded arithmetic: `GridEdge.narrow`,
  `Grid.narrow`. The theorems on grids, `fill` and marching cubes (C06–C10 as C73, C15, C16, C72, C85) assume no order law either, so they cover NaN and
  infinities; elsewhere NaN, infinities and overflow are NOT modelled.
* C++ virtual calls to user code (`ScalarField`, `ZeroFinder`) are arbitrary functions.
* Out-of-bounds accesses, dereferenced end iterators and failed asserts are explicit `none` / error outcomes, and theorems show they do not occur.
* `std::vector` is `List`/`Array`; `std::unordered_map` is a finite map (association list or function), whose iteration order is never observable in the code modelled.
* `std::sort` is modelled by a stable merge sort; only the facts "permutation" and "sorted" are used by the properties.

## Per-property plan
| id | modelled | proof |
|---|---|---|
| C01 | `UniformGrid` ctor as function `Nat → Except` | bit trick lemma `n &&& (n-1) = 0 ↔ power of two` for all n |
| C02 | `pointToIndex`, `indexToPoint` with mod 2^32 | div/mod arithmetic (omega/nlinarith) |
| C03 | all predicates | linear arithmetic against a geometric spec (membership of all corners; counting adjacent cells) |
| C04 | `adjacentCellsForEdge` with wrapping subtraction | linear arithmetic |
| C05 | `adjacentVerticesForCell`, `materialsOfCell` | arithmetic |
| C06–C08, C10 | `fill` as loops with running indices over an arbitrary previous state | loop invariants by induction; sortedness of emitted list; binary search correctness |
| C09 | `edgeLess`, sort, `lower_bound` | merge sort lemmas, binary search invariant |
| C11–C13 | both solvers as recursive functions over ℝ / K | induction on steps, IVT |
| C14 | tables transcribed | kernel `decide` over the whole finite domain |
| C15–C17 | `marchingCubes` | induction over cells; table facts; algebra for normals |
| C18–C20 | `uniformDualContouring` | induction over edge lists; balance of sides around faces |
| C21, C51 | generic octree traversal with the code's tables | structural induction on octrees |
| C22–C26 | DC octree build/contour | structural induction |
| C27–C29 | MDC tables, build, contour | kernel decide + induction |
| C30 | DSU with fuel-free termination via ranking | invariants |
| C31–C33 | material filters | induction on histories; counterexample for C32 |
| C34, C45, C55 | mesh container, PLY conversion | lists |
| C35–C39, C54 | QEF solvers, Householder, Jacobi | algebra over ordered field/ℝ |
| C40 | edge record | real algebra |
| C41–C43 | triangle octree (`Model/TriangleOctree`): insert, split, nearTriangle, distance | region-by-region real algebra for the distance (`Proofs/TriDistance`), induction on trees (`TriInsert`, `TriNear`), counterexamples `C41_lost`, `C42_miss` |
| C44 | PLY normalisation | order lemmas, counterexample |
| C46–C47, C65 | heightmap (`Model/Heightmap`) | floor/clamp arithmetic, bilinear interpolation as iterated linear interpolation of sequences; counterexample `C46_center_fails` |
| C64 | `MeshField::load/value/grad` on top of the PLY and triangle octree models | folds over buffers, C41–C43 |
| C48–C53 | DMC octree | induction; counterexample |
| C52 | octree ctors | as C01 |
| C56 | grid maps | field algebra |

| C57 | `reset` of the QEF solvers | equality of all further behaviour with that of a new solver |
| C58 | DC octree contour of adaptive trees | pushing leaf sides to unit faces (`Proofs/Push`, `Proofs/SegCover`), telescoping around faces |
| C59, C60 | MDC vertices: clustering heap, marks, contour for all bounds | inductive specification `VertexFit`, forest invariants (`Proofs/MdcForest`...), `MdcSeries` |
| C61–C63 | DMC octree: dual vertices, closedness, refinement criteria | `DmcLeafOK`/`DmcTreeOK` by recursion on the size; sum over all lattice points of the sides in the six faces of the dual cells: opposite faces cancel, points that are no corners contribute nothing (`Proofs/DmcClosed`); real algebra |
| C66 | memory of `DC_OctreeNode` with addresses, the union of pointers and leaf data, a budget of allocations (`Model/DcNodeMem`) | ownership predicate `RawTree.Rep`/`Sep`; induction on the size for every crash point; counterexample `C66_rebuild_unsafe` |
| C67 | the same for the nodes of MDC and DMC octrees, whose children are arrays (`Model/ArrNodeMem`) | `ArrTree.Rep`/`Sep`, exact number of allocations `arrNeed`, induction on the size |
| C68 | `MDC_Octree` used repeatedly: `resize` keeping old elements, failed builds (`Model/MdcRebuild`) | simulation between a new and a used octree up to the marks `contour` leaves |
| C69 | the four mesh generators on filled grids (`Spec/Accuracy`: points of triangles, distance to a zero) | intermediate value theorem on the crossed edge, then every vertex is in a cell touching that edge; convexity |
| C70 | all five mesh generators over affine fields (`Spec/Flat`) | all planes added to a QEF are multiples of one row: Householder steps keep rows proportional, the mass point lies on the plane, so the residual is zero and Jacobi leaves the clamped mass point; induction over trees (FlatQef, Flat, FlatOct, FlatMdc, FlatDmc) |
| C71 | `DC_Octree::build` with simplification over a half-space | sign patterns of affine functions on a 3x3x3 lattice are unate, so manifold and topologically safe (PlaneTopo); error is zero by C70; induction over the tree |
| C72 | meshes of marching cubes, uniform DC, MDC with a negative bound as lists of vertex triples (`Spec/Manifold`) | around one grid edge (MC) or one cell (dual methods) the triangles are joined through the faces next to it; finite cell tables by `decide` over all 256 sign patterns, lifted to arbitrary grids (McManifold, MdcManifold, DcManifold); demos with and without a pinched vertex |
| C73 | `fill`, `findEdge`, marching cubes over any type with operations and a linear order | the loop invariants never use a law of arithmetic; sample positions specified by repeated addition (`samplePos`), search positions by multiplication (`worldPos`) |
| C74 | floating point formats (`FloatFormat`: any monotone rounding that fixes the representable numbers; `binaryFormat`: p bits, any rounding rule), `Fl F` with rounded operations, both zero finders, `fill`, `double -> float` of the offset | monotonicity for containment; relative error bounds and induction on the steps for accuracy; concrete `double` evaluation for the counterexample (Rounding, RoundingRF, RoundingDemo) |
| C75 | `fill` over `K`, conversion of the records in any way (`SameStructure`), all five mesh generators over `K'` with `RoundedLaws` | `Filled` is about materials and lattice positions only, so it survives conversion; the theorems C15–C29, C50–C62 are generic in the scalar type; a field positive on the border gives no crossing edge on the border (RoundingMesh; instance `Fl F` in FloatLaws; concrete case `double` to `float`) |
| C76 | chunks: grids of one size and step at multiples of size * step, `fill` and `marchingCubes` on each (Spec/Chunks) | the sides of all meshes are the sides of a set of cells of one infinite lattice (Proofs/Chunks `lat_closed`, from the table facts of C14/C16); positions by C07; with rounding: exact if coordinates are representable, a concrete crack otherwise (Props/Chunks, Props/ChunksRounded) |
| C77 | two runs: a grid or octree and the same scaled and moved, with the scaled and moved field (Spec/Placement `Similar`, `SameMoved`) | both zero finders commute with the map (induction on the steps), hence equal contents of the grids; the algorithms never read the placement; for DMC the samples and tests are compared one by one; the simple policy by a concrete tree (Proofs/Placement, Proofs/PlacementMesh, Props/Placement) |
| C78 | Solver histories that are permutations of each other; `IsSort` for the sort | equal error functions determine the normal equations (quadratic forms are determined by their values), `solve` uses only these, the mass point and the options; uniqueness of `DualVertex`; then `dc_result`, C23 |
| C79 | `Model/Copies`: shallow copy of a root as the implicit copy constructor makes it, on the memories of C66/C67 | both objects satisfy the ownership invariant of C66/C67; destruction of one frees the shared children (C66_destroy, `arrCollapse_spec`), the first child pointer of the other dangles |
| C80 | `Model/TriNodeMem`: nodes of the triangle octree as memory cells, every `new` and every growing `push_back` takes one unit of a budget and throws when there is none left; `MeshField::load/value/grad` on that memory | ownership invariant `Owned` (pointer leads to a tree without shared nodes), `Grown` (frame condition) and `Broken` (what a failed insertion leaves), by induction over the tree with the addresses; induction over histories of loads |
| C81 | signed volume of the mesh triangles against cell counts (`Spec/Volume`) | the triangles of each of the 256 configurations, closed by the solid parts of the faces, enclose a multi-affine polynomial in the twelve offsets that lies between 0 and 6 (kernel-evaluated certificate checker `nonneg_sound`, `cell_volume`); the face terms agree between neighbouring cells and telescope |
| C82 | `Model/FillCrash`: the loops of `fill` left at the first exception of the zero finder or of `emplace_back` (any set of edges), or of the allocation of `values` | simulation: the run with exceptions agrees with `fill` up to the first exception (`Sims`, by induction over the loops); `fill` overwrites everything but size and place |
| C83 | Model: `Grid.fill`, `marchingCubes`, both zero finders. Spec: `Spec/Locality.lean` (`AgreeAt`, `InWorldCell`, `LocalFinder`, `shownTriangles`). | `C83_finders`: induction over both loops; for regula falsi the points it evaluates are those of C12, all inside the edge. `C83_grid` from C06/C07. `C83_edit`: a cell without a point of U has the same corner mask and the same records, hence the same triangles; the lists of visited cells agree on such cells. Exact arithmetic (the bound "stays on the edge" for regula falsi). `C83_dual_contouring` (`Props/LocalityDc.lean`): a clean cell has the same corners and records, so by C78 (order independence) the same vertex. |
| C84 | Model: `Grid.fill`, `marchingCubes`, `dualContouring`. Spec: `Spec/Topology.lean` (`SameSigns`). | The records of both fills agree in axis, position and orientation (`allEdgesR`); the index lists are functions of these and of the corner masks (`mc_result`, `dc_result`). |
| C85 | Model: `Grid.fill`, `marchingCubes` over a type with arbitrary operations and comparisons (no order law). Spec: `Spec/NaN.lean` (`IsNaN`, `BadPoint`), `Spec/Filled.lean` (`Stored`, `NotNaN`). | Marching cubes on a `Stored` grid fails iff recorded and required edges of a visited cell differ (`mc_none_iff`); the corners of a cube are connected by edges, so signs and materials disagree along an edge iff they disagree somewhere but not everywhere. Instance: integers with NaN. |
| C86 | Model: `Model/FillCalls.lean` (`Grid.fillH`: the loops of `fill` with the list of calls made so far threaded through; `UserCode` answers from that list). Spec: `Spec/FillCalls.lean` (`fillCalls`, `Conversation`, `answerRecord`). | Each loop is a fold over the listed points (induction over the nested loops); the list of answers defines `Answers`; points are distinct, so later answers do not change earlier ones. `C86_ofField`: equality with `Grid.fill`. |
| C87 | Model: `bisectLoopH`, `rfLoopH` in `Model/FillCalls.lean`. Spec: `uIcc`, `StrictBetween`, list of evaluations. | Induction on the step count; the bracket invariant `f0 * f1 < 0` (regula falsi) is kept by every answer. `C87_ofField`: equality with the finders of C01–C05. |
| C88 | Model: `fill`, `marchingCubes`, `dualContouring`. Spec: `Spec/Completeness.lean` (`SolidBall`, `EmptyBall`, `NearBox`, `UsedVertex`, `Walk`). | Each ball contains a grid point (rounding); along the three legs of the box between them the sign changes on some edge (discrete intermediate values); that edge is recorded (C07) and used by a triangle of a cell that contains it (C14) resp. surrounded by a quad (C19). Example: half-space. |
| C89 | Chunks as in C76, enclosed volume as in C81. | The per-cell identity of C81 (volume minus three telescoping face terms) is summed over the set of all cells of the world: `mesh_volume` of every chunk is carried to the world's lattice, the faces between covered cells cancel (`sum_tele`), the outer ones are empty. |
| C90 | `Model/MarchingCubes`, `Model/Grid`, `Model/ZeroFinder`; specification `Spec/Embedded` (hull, proper meeting, embedded mesh) | For each of the 256 rows and each pair of its triangles a separating plane is given in `Proofs/EmbeddedTable` (generated); the kernel checks that, for all offsets in (0, 1)^12, it separates them (the distance of a corner from the plane is a multi-affine form in the offsets, so its sign follows from the signs with each offset replaced by 0 and 1), `Proofs/EmbeddedCell`. Triangles of different cells meet only in the common face, where the traces of both are sides. The bisection finder may return an end of an edge (offset 0 or 1), where triangles degenerate, so it is not covered. |
| C91 | `Model/MarchingCubes`, `Model/Grid`; specification `Spec/Convergence` (body, Lebesgue measure on `Fin 3 → ℝ` from Mathlib, layer around the surface, coverage) | From C81/C89: the enclosed volume lies between the volumes of the solid and of the touched cells. A cell with a solid corner is contained in the body and the layer, and the body in the solid cells and the layer, since a segment from a point of the body to a point outside meets the boundary (connectedness). The limit is Mathlib's continuity of the measure of closed thickenings of a compact set. |
| C92 | `Model/MarchingCubes`, `Model/Grid`; specification `Spec/Hausdorff` (points of the meshes, surface = topological boundary of the body) | Triangles lie in cells with solid and empty corners, and a segment between such corners meets the boundary. Conversely inner and outer balls near a surface point contain lattice points, between which an edge is crossed (C88) and carries a used vertex; uniformity by compactness of the surface. |
| C93 | `Model/UniformDC`, `Model/DcOctree`, `Model/MdcOctree`; specification `Spec/DualHausdorff` (pieces of a world, coverings) | All three meshes consist of triangles around crossed lattice edges, with vertices in the cells around the edge (C18/C19, C23, C28/C59), and every crossed edge whose four cells are in the piece has a triangle. The edge meets the surface; conversely, between inner and outer lattice points an edge is crossed. Uniformity by compactness as in C92. |
| C94 | `Model/Heightmap` (`Heightmap.field`), grids and all meshers; specification `Spec/Terrain` (terrain, slopes, crossed lines) | `value` is the altitude above a height that depends on x and z only (C46/C47), so along vertical lines it is affine with slope one: exactly one sign change, on which regula falsi is exact (C12) and bisection bounded (C11). Lipschitz bound by C65, distance of meshes to zeros by C69; gradients by C65. |
| C95 | Grids, uniform dual contouring, DC octrees without simplification, MDC octrees with negative bounds; specification `Spec/DualVolume` (solid points, crossed edges, bodies in boxes) | Each mesh is one quad per crossed edge on vertices in the four cells around it. With all vertices at the centres of their cells the signed volume is the number of solid points (telescoping sums along grid lines); moving the vertices of a closed mesh changes six times the volume by a sum of prisms (the walls cancel because the mesh is watertight, C20/C29/C58), each bounded by the box of its edge. Solid points and crossed edges against the body by the cell measures of C91. |
| C96 | `BoxField`, `OnBox`, `OnMesh` (Spec/Box) over the models of fill, QEF solver, uniform DC and DC octree; the QEF of a cell of a box is diagonal (axis normals), so every rotation is trivial and the solution is face coordinate or centre of the cell per axis | `C96_uniform`, `C96_octree`, `C96_mdc` (all crossings of a cell of a box are in one sheet, by the table): the cell vertex coordinates are computed from the signs of the 8 corners (case distinction over one cell's sign patterns), soundness by convexity, completeness by finding the quad that covers a given surface point; `C96_finder` for the regula falsi solver; example: cube of side 3 |
| C97 | `BestPoint`, `SpreadNormals`, `CornerAt`, `CloseTo`, `offDiagBound` (Spec/Corner) over the models of the QEF solver, uniform DC, DC octree and MDC octree; unlike C38 no exactness of the eigen decomposition and no clean run is assumed | spread rows keep every column but the last above the threshold (induction over the columns: Schur complement), so the triangularisation keeps the normal equations; with `jacobi_spec` (C54) the error is `E Σ R Eᵀ (c - s)`, `R` the part off the diagonal, bounded by Cauchy-Schwarz; clamping does not move away from a point of the cell: `C97_solver`, then `C97_uniform`, `C97_octree`, `C97_mdc` by permutation of the planes; `C97_common` (corners), `C97_limit`; example: the corner cell of a cube, and slanted planes |
| C98 | model of the solvers and of the dual contouring variants; `Spec/Near.lean` has the error weight, the factor and near optimality | in the basis found by the Jacobi iteration the difference to a least point has components (Ry)_i/e_i or -y_i; the quadratic form is bounded by Cauchy–Schwarz; normal equations from minimality; clean thresholds from finitely many sublists and permutations |
| C99 | `ply2mesh`, `PlyData` (Model/Mesh.lean) | Loop invariants over the three loops (normals, vertices, triangles) against a specification by sums over the faces around a point; a degenerate face has area vector zero, so adding it twice at one point changes nothing |
| C100 | `Heightmap::value`, `grad`, `heightVal` with every `int` checked to be in range (Model/HeightmapInt.lean) | Equality with the ideal model on the addressable positions, `none` outside of them; bounds on clamped indices |
| C101 | the predicates with `glm::abs` wrapping around on 32 bits (Model/GridInt.lean) | Agreement with the ideal predicates of C03 away from -2^31; exact description of what is accepted; index arithmetic for the out-of-bounds access |
| C102 | the octree of C22-C24 with its error systems (Model/DcOctree.lean, Model/Qef.lean), Spec/DcError.lean | Induction on the level: the state stored in a leaf of side 2^k describes exactly the sum over all crossings below (C35 for each history of calls); `eval` before storing compares this sum with the bound; existence of thresholds by finiteness of the reachable states |
| C103 | the manifold DC octree of C28/C59 (Model/MdcOctree.lean), Spec/MdcError.lean | Induction on the derivation of what a vertex stands for (C59): its stored state describes exactly the sum over its crossings, disjoint sets of crossings adding up; existence of thresholds by finiteness of the states reachable below each cube |
| C104 | the octrees of C102 and C103 with their meshes (C22, C26, C59) | A quad is around a segment with a sign change, which contains a crossed edge (induction on its length); the cubes around the segment are around the edge; C102/C103 bound each corner's plane error; squares are convex |
| C105 | the vertex normals of the models of C18, C22 and C28, Spec/VertexNormal.lean | The sum of N unit vectors with components of at least gamma along u has a component of at least N gamma and a length of at most N; induction over the merged tree (DC) and over what a vertex stands for (MDC); a convex combination of two unit vectors of the cone is in it (DMC, through C49) |

## How the octrees are modelled
* A node is `Oct N L` (leaf with data `L`, inner node with data `N` and eight children): `std::unique_ptr` children arrays are
  either absent or full in the code (`subdivide` creates all eight), so this loses nothing.
* Sizes are `2 ^ k`: the constructors reject everything else (C52).
* `cellProc/faceProc/edgeProc` are modelled as functions producing the list of calls that reach four leaves (`Trav`), with the
  index tables of the code; the leaf action is then folded over this list. The order of calls is that of the code.
* Members not yet written are `Option`s or explicit initial values; reading an unwritten one is `none` (undefined behaviour).
* `threadM` threads the QEF solver object and the heap through the eight recursive calls in order.
* MDC: vertices live in a heap (`MdcHeap`, a list of records indexed by address) because `m_parent` pointers connect vertices of
  different nodes; `std::vector<DC_OctreeNode::Vertex>` storage of a node is a list of addresses. Addresses are never reused in
  `build` (the code never reallocates a node's vector after taking pointers into it: it is sized before `m_parent` is set).
* The environment `DcEnv` collects what is deliberately arbitrary: `normalize` (glm::normalize, NaN for zero vectors), the
  `epsilon` of edge normals, the tiny threshold of the Householder step and the order produced by `std::sort` for equal keys.
* DMC: a leaf carries its address (any injective assignment) because `vtx_map` is keyed by pairs of node pointers; `material` is an
  `Option` (unwritten for a positive value) and reading an unwritten one gives the content `junk` of the memory, or an error if
  `junk` is `none`. The random generator is an arbitrary state machine (`DmcEnv.draw`).

## Trusted base
Lean 4.33.0 kernel; axioms at most `propext`, `Classical.choice`, `Quot.sound` for every theorem (no others are used; checked by
`#print axioms` in scratch runs and by vcheck); the faithfulness of the hand translation (documented per definition).
Not modelled: stb_image and tinyply (third party file I/O), floating point rounding outside C73 to C76 (and the generic theorems behind them), NaN and infinities outside grids, `fill` and marching cubes (C85), memory allocation
failure outside the octree builds (C66, C67), the mesh field (C80) and `fill` (C82), thread schedules (the library is single threaded). The functions of
`ScalarField` are `noexcept`; the only user callback that may throw is the zero finder, which only `fill` calls (C82).

## Known disagreements between the code and what a user would expect
1. `TriangleOctree::insert`: the triangle that makes a full leaf split is dropped (C41_lost).
2. `nearTriangle` prunes by node boxes that need not contain the stored triangles (C42_miss).
3. `PlyData::normalization` and `MeshField::load` start maxima with `numeric_limits<float>::min()` (smallest positive): wrong for
   all-negative axes (C44, `C44_negative_fails`).
4. `Heightmap::heightVal` uses transposed axes (in bounds only because of how the clamps are written; C46_center_fails).
5. `MaterialFilterFast::add (const MaterialFilterFast &)` does not keep the majority (C32, `C32_merge_majority_fails`).
6. `DMC_OctreeNode` material is left uninitialised for positive values and read in `vertProc` (C48_reads_uninitialised: it happens
   whenever a surface is closed inside the root cube; positions, normals and triangles are not affected).
7. `m_mat` of a grid is uninitialised before `fill`; a field returning `Material::Empty` for a value ≤ 0 breaks the invariants
   (hypothesis `ProperField`).
8. An octree with a root greater than the grid reads out of bounds (hypothesis `CubeIn`).
9. QEF `solve` without points divides by zero; `pinvTolerance = 0` divides by zero on singular systems (hypotheses of C22/C28
   completion).
10. `kMdcEdgeSetIndex` joins the two components of the masks with exactly two opposite empty corners (C27_joined; part of the
    definition of `SameSheet`).
11. `adjacentVerticesForEdge` is declared but never defined.
12. `checkTopoSafety` compares materials, not signs, at midpoints: stricter than needed.
13. The QEF state counter has 30 bits: completion theorems bound the number of cells (`C28_completes`: 48·cells < 2^30, always true
    up to side 256; DC with simplification: side ≤ 256).
14. `DMC_Octree::buildNode` computes `size * 8` in `int32_t`: overflow for root sizes of 2^28 and more (hypothesis of C53).
15. `DC_OctreeNode::subdivide` clears `is_leaf` before the pointers, which share their storage with the leaf data, are written; if
    an allocation fails then, `collapse` deletes leftovers of the leaf data (C66_stale, C66_rebuild_unsafe).
16. `MDC_OctreeNode::collapse` does not clear `m_vertices`: after a failed `build` the next `contour` returns old vertices without
    triangles (C68_leftover).
17. The octree classes and `MeshField` have implicit copy constructors that copy owning raw pointers: after copying a subdivided octree,
    destroying both objects is undefined behaviour in either order (`C79_dc`, `C79_mdc`, `C79_dmc`). `MeshField` never frees its octree,
    and if the allocation in `load` fails after `delete m_root`, the pointer dangles (`C80_load`, `C80_dangling`). If an allocation fails
    while a full leaf is subdivided, triangles of that leaf are lost (`C80_lost`).
18. A flat surface through the whole of a simplified DC octree disappears: for any error bound that is not negative the tree collapses
    into one leaf, and one leaf gives no polygons (`C71_plane_vanishes`). More generally anything the collapse merges into the root is lost.
19. MDC (with a negative bound, i.e. no merging) is not manifold: in a cell whose empty corners are just two opposite ones, the tables
    give one vertex to two separate sheets (finding 10), so the sheets touch in it (`C72_mdc_vertex`, `C72_demo`). Uniform dual
    contouring has such vertices for both kinds of opposite corners (`C72_uniform_vertex`); marching cubes never (`C72_marching_cubes`).
20. With rounded arithmetic regula falsi may leave the segment it searches (`C74_regula_falsi_leaves_segment`), by at most ten rounding
    errors per step (`C74_regula_falsi_near_segment`), so offsets may be slightly negative; bisection never does
    (`C74_bisection_in_segment`). `fill` adds the step repeatedly to get the sample positions but multiplies to get the ends of the edges,
    so the values handed to the zero finder belong to slightly different points (bound: `C74_sample_drift`).
21. Because of this repeated addition, neighbouring grids with rounded arithmetic may sample their common plane at different places and
    marching cubes may then leave cracks between their meshes (`C76_rounding_gap`); not so if the lattice coordinates are representable
    (`C76_no_cracks_rounded`).
22. `DMC_Octree::shouldSplit` (simple policy) sums interpolation errors in units of length (global) and compares the sum with
    `epsilon / scale^2`, a bound meant for the squared local errors of the QEF; so the tree depends on the unit of length
    (`C77_simple_policy`, `C77_simple_policy_gap`).  All other bounds are consistent (`C77_*`).
23. `UniformGrid::fill` gives no guarantee if it throws (zero finder or memory): new materials with old edge records, on which meshing violates assertions
    (`C82_left`, `C82_stale`); another `fill` repairs it (`C82_recover`).
24. A field value NaN at a grid point: `fill` takes the point for solid (grid.cpp:36-39, `> 0` fails) but its sign for positive (grid.cpp:58-60, `<= 0` fails). If the
   cell also has a non-positive corner, marching cubes violates its assertion and a release build reads uninitialised `vertex_idx` (marching_cubes.cpp:88-111) (C85_nan_iff).
25. `Heightmap::value` converts pixel coordinates to `int` unchecked: positions 2^31 pixels or more away are undefined behaviour
    (`C100_overflow`; the exact safe set is in `C100_value`).
26. `UniformGrid::isVertexInGrid` and the other predicates use `glm::abs`: for the coordinate -2^31 it overflows; wrapping around, the point counts as inside and
    `at` reads outside of the array (`C101_min`, `C101_min_access`).
