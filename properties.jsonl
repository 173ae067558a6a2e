{"id": "C01", "title": "Grid construction accepts exactly the powers of two in [2,1024]", "statement": "Constructing a UniformGrid with a given size succeeds if and only if the size is a power of two with 2 <= size <= 1024; every other 32-bit size throws (invalid_argument for sizes below two and for non powers of two, length_error for powers of two above 1024), and dataSize() of a constructed grid is (size+1)^3 with no 32-bit wrap.", "quantifier": "every 32-bit unsigned size", "why_tests_cant": "2^32 possible sizes and the bit trick size & (size-1) must be right on all of them", "anchors": ["src/data/grid.cpp: UniformGrid::UniformGrid", "include/isomesh/data/grid.hpp: dataSize"]}
{"id": "C02", "title": "Point/index mapping is a bijection in Y-X-Z order", "statement": "For a constructed grid, pointToIndex maps the grid vertices (coordinates in [minCoord,maxCoord]) one-to-one onto [0,dataSize), indexToPoint is its two-sided inverse, indices grow in (Y,X,Z) lexicographic order, and no 32-bit computation on the way overflows.", "quantifier": "every grid size, every vertex, every index", "why_tests_cant": "up to 10^9 vertices per grid and ten sizes; injectivity relates every pair of vertices", "anchors": ["src/data/grid.cpp: pointToIndex, indexToPoint"]}
{"id": "C03", "title": "In-grid and on-border predicates describe the geometry", "statement": "isVertexInGrid/isEdgeInGrid/isFaceInGrid/isCellInGrid return true exactly when every vertex of the element is a grid vertex; for elements in the grid isVertexOnBorder/isEdgeOnBorder/isFaceOnBorder/isCellOnBorder return true exactly when the element has fewer adjacent in-grid cells than an interior one (8, 4, 2; for cells: fewer than 6 face neighbours).", "quantifier": "every grid size, every integer position except INT_MIN coordinates, all three axes", "why_tests_cant": "unbounded coordinate triples and three template instances; off-by-one on one side of one axis is easily missed", "anchors": ["src/data/grid.cpp: isVertexInGrid .. isCellOnBorder"]}
{"id": "C04", "title": "Cells adjacent to an edge are reported exactly", "statement": "For an in-grid edge along X, Y or Z, adjacentCellsForEdge returns, at each of its four positions, the index of the in-grid cell at the corresponding side of the edge, or kBadIndex exactly when that side is outside the grid; listed cells are distinct, each contains the edge, and consecutive positions share a face containing the edge, in counterclockwise order about the positive axis direction.", "quantifier": "every grid size, every in-grid edge of each axis", "why_tests_cant": "wrapping 32-bit subtraction is used first and patched on borders; every border/edge/corner combination on three axes matters", "anchors": ["src/data/grid.cpp: adjacentCellsForEdge<0,1,2>"]}
{"id": "C05", "title": "Vertices and materials of a cell", "statement": "For every in-grid cell, adjacentVerticesForCell returns the indices of its eight corners in the order z fastest, then x, then y, all below dataSize(), and materialsOfCell returns the materials stored at those vertices.", "quantifier": "every grid size, every in-grid cell, every grid content", "why_tests_cant": "must hold at each cell incl. the last one where an index overflow would read out of bounds", "anchors": ["src/data/grid.cpp: adjacentVerticesForCell, materialsOfCell"]}
{"id": "C06", "title": "fill stores the right material at every vertex", "statement": "After fill, the material at every vertex is Empty if the field value at the vertex's global position is positive and otherwise is the field's material choice at that position; every slot is written and the field is evaluated at localToGlobal of the vertex.", "quantifier": "every field, every grid size/position/step, every vertex", "why_tests_cant": "fields are arbitrary functions; positions are produced by accumulation in nested loops", "anchors": ["src/data/grid.cpp: fill, at, operator[]"]}
{"id": "C07", "title": "fill records exactly the surface-crossing edges", "statement": "After fill, edges<D>() contains one record for each in-grid edge along D whose endpoint values lie on different sides (<=0 versus >0) and none for any other edge; the record carries that edge's lesser endpoint, axis, which endpoint is solid, the solid endpoint's material, and the zero found by the solver for exactly that segment and those values. The two endpoints reported for a record are the ends of that unit edge, one inside and one outside, and the flag tells which.", "quantifier": "every field, solver, grid size, axis and edge", "why_tests_cant": "the running index pair idx1/idx2 must stay in sync with three nested loops for every size and every pattern of signs", "anchors": ["src/data/grid.cpp: fill"]}
{"id": "C08", "title": "findEdge works directly after fill", "statement": "Directly after fill (no sortEdges call), edges<D>().findEdge(x,y,z) returns the record of the edge with that lesser endpoint if the edge crosses the surface and end() otherwise, for any 32-bit coordinates.", "quantifier": "every field, grid, axis and every integer query", "why_tests_cant": "binary search is correct only if the emission order is sorted for every pattern of crossings", "anchors": ["src/data/grid_edge_storage.cpp: findEdge, edgeLess", "src/data/grid.cpp: fill"]}
{"id": "C09", "title": "sortEdges makes findEdge a correct lookup for any insertion order", "statement": "After adding any multiset of edges in any order and sorting, the storage holds the same multiset, and findEdge(x,y,z) returns an edge with that lesser endpoint iff one was added; without one it returns end().", "quantifier": "every finite sequence of added edges, every query", "why_tests_cant": "all permutations and duplicates of unbounded sequences", "anchors": ["src/data/grid_edge_storage.cpp: sortEdges, findEdge, edgeLess"]}
{"id": "C10", "title": "Refilling a grid forgets the past", "statement": "The observable state after fill(f, solver) (materials and edges of all axes) does not depend on what was filled before or how many times.", "quantifier": "every history of fills", "why_tests_cant": "quantifies over all histories", "anchors": ["src/data/grid.cpp: fill"]}
{"id": "C11", "title": "Bisection zero finder", "statement": "For a continuous-on-the-segment field with endpoint values of opposite (or zero) signs, not both zero, the returned coordinate lies between the endpoints and within |width|/2^n (n = iteration count) of a true zero of the field on the segment; it never leaves the segment even without continuity.", "quantifier": "every field, segment, orientation and iteration count", "why_tests_cant": "all real-valued functions; unbounded iteration count", "anchors": ["src/util/bisection_zero_finder.cpp", "include/isomesh/util/zero_finder.hpp"]}
{"id": "C12", "title": "Regula falsi zero finder", "statement": "For endpoint values of opposite sign every sample point of the regula falsi solver is well-defined (no division by zero) and strictly inside the segment, all of them are pairwise different, and the bracket always contains a sign change; an early stop happens only on an exact zero, which is returned; an affine field is solved exactly; an endpoint at which the field vanishes is returned exactly.", "quantifier": "every field, segment and iteration count", "why_tests_cant": "all real-valued functions; unbounded iteration count", "anchors": ["src/util/regula_falsi_zero_finder.cpp"]}
{"id": "C13", "title": "Zero finders always make at least one step", "statement": "For any requested iteration count, including zero and negative ones, the solver behaves as if the count were at least one, and terminates.", "quantifier": "every integer iteration count", "why_tests_cant": "all 32-bit counts", "anchors": ["include/isomesh/util/zero_finder.hpp", "src/util/bisection_zero_finder.cpp", "src/util/regula_falsi_zero_finder.cpp"]}
{"id": "C14", "title": "Marching cubes tables agree with the geometry", "statement": "For each of the 256 corner patterns, the edge mask lists exactly the cell edges whose endpoints differ, and the triangle table uses only such edges, with three different edges per triangle, and terminates properly.", "quantifier": "all corner patterns (whole domain)", "why_tests_cant": "the table is data: every entry matters and errors show up only in rare configurations", "anchors": ["src/util/tables.cpp: kMcVertexMaskToEdgeMask, kMcTriangleTable"]}
{"id": "C15", "title": "Marching cubes emits only valid, non-degenerate triangles", "statement": "On any filled grid, marchingCubes never indexes an edge that has no vertex, the number of mesh vertices equals the number of crossing edges of the grid, every index is below the vertex count, no triangle repeats an index, and each vertex is the crossing point of its grid edge in grid-local coordinates, lying on that edge (the mesh carries the grid's global position and step); every crossing edge has exactly one vertex.", "quantifier": "every filled grid", "why_tests_cant": "every configuration of signs over the entire grid", "anchors": ["src/algo/marching_cubes.cpp"]}
{"id": "C16", "title": "Marching cubes surface is closed and consistently oriented away from the grid border", "statement": "In the mesh produced by marchingCubes, every directed triangle side occurs at most once and, unless its two grid edges lie in one common boundary plane of the grid, is matched by exactly one oppositely directed side, so the surface has no holes or orientation flips except along the outer boundary of the grid.", "quantifier": "every filled grid, every pair of mesh vertices", "why_tests_cant": "a crack needs one particular pair among 256x256 adjacent cell configurations in one of three directions", "anchors": ["src/algo/marching_cubes.cpp", "src/util/tables.cpp: kMcTriangleTable"]}
{"id": "C17", "title": "Marching cubes faces point from solid to empty", "statement": "For edge offsets strictly between 0 and 1, each triangle side running in a face of its cell has the solid end of its starting edge on the fixed (right-hand, seen from outside the cell) side, and in a cell with a single solid corner (or a single empty corner) the emitted triangle's normal points from the solid towards the empty side; with closedness (C16) this fixes the orientation everywhere.", "quantifier": "every edge offset in (0,1), all such corner patterns", "why_tests_cant": "offsets are continuous values", "anchors": ["src/util/tables.cpp: kMcTriangleTable", "src/algo/marching_cubes.cpp"]}
{"id": "C18", "title": "Uniform dual contouring creates one vertex per crossing cell, inside it", "statement": "dualContouring creates a mesh vertex for exactly those in-grid cells that have at least one crossing edge, one each, and the vertex position (in local coordinates) lies inside the closed cell. Its material occurs at a solid corner of the cell; a material held by more than half of the solid corners is always chosen.", "quantifier": "every filled grid", "why_tests_cant": "every sign configuration and every numeric result of the QEF minimisation", "anchors": ["src/algo/uniform_dual_contouring.cpp"]}
{"id": "C19", "title": "Uniform dual contouring emits two triangles per interior crossing edge", "statement": "For each crossing edge that is not on the border, exactly two triangles are emitted, joining the vertices of the four adjacent cells; border edges emit none; all indices are valid and the three indices of each triangle are distinct.", "quantifier": "every filled grid", "why_tests_cant": "every sign configuration; a lookup of a missing cell vertex would dereference an end iterator", "anchors": ["src/algo/uniform_dual_contouring.cpp", "src/data/grid.cpp: isEdgeOnBorder, adjacentCellsForEdge"]}
{"id": "C20", "title": "Uniform dual contouring surface is closed and consistently oriented away from the border", "statement": "For every ordered pair of mesh vertices belonging to cells sharing a face not touching the border (and for quad diagonals), the directed side is used as often in one direction as in the other; so away from the outermost cell layer the mesh has no boundary.", "quantifier": "every filled grid", "why_tests_cant": "every sign configuration around each face", "anchors": ["src/algo/uniform_dual_contouring.cpp"]}
{"id": "C21", "title": "Octree contouring visits every minimal edge exactly once with its adjacent leaves", "statement": "For any octree shape, the recursive cell/face/edge traversal calls the leaf-level edge routine exactly once for each minimal interior edge (an edge of a smallest adjacent leaf, interior to the root cube), with the four leaves around it in the right order, and for nothing else.", "quantifier": "every octree (any depth and refinement pattern)", "why_tests_cant": "unboundedly many tree shapes; recursion tables cover 12+4x... index combinations", "anchors": ["src/data/dc_octree.cpp: cellProc, faceProc, edgeProc", "src/data/mdc_octree.cpp", "src/data/dmc_octree.cpp"]}
{"id": "C22", "title": "DC octree contouring uses only existing vertices", "statement": "After building from a filled grid with any epsilon, with or without simplification, building and contour() complete, and contour() emits only triangles whose indices are valid mesh vertices (never an unset vertex id) and with the winding given by the edge's solid end; a leaf without a vertex has all its lattice points, not only its corners, on one side of the surface.", "quantifier": "every filled grid, every epsilon and flag", "why_tests_cant": "depends on which nodes collapse, i.e. on all tree shapes", "anchors": ["src/data/dc_octree.cpp: build, contour, buildNode, edgeProc"]}
{"id": "C23", "title": "DC octree without simplification equals uniform dual contouring connectivity", "statement": "If no node is collapsed, the DC octree mesh has one vertex per crossing cell and two triangles per interior crossing edge of the cube.", "quantifier": "every filled grid", "why_tests_cant": "every sign configuration", "anchors": ["src/data/dc_octree.cpp"]}
{"id": "C24", "title": "Collapsing octree nodes is all-or-nothing and respects the error bound and topology flag", "statement": "A DC octree node is collapsed only if all its children are leaves, and either none of them is crossed by the surface, or simplification is on, the topology test passes and the fitted error does not exceed epsilon; otherwise its eight children are kept unchanged.", "quantifier": "every grid, epsilon and flag", "why_tests_cant": "all trees and numeric values", "anchors": ["src/data/dc_octree.cpp: buildNode, checkTopoSafety"]}
{"id": "C25", "title": "The topology table marks exactly the manifold corner patterns", "statement": "For each of the 256 corner patterns the topology-safety table is true iff the pattern's solid corners are connected along cube edges and so are its empty corners.", "quantifier": "all corner patterns (whole domain)", "why_tests_cant": "table data, one wrong bit shows up in rare configurations", "anchors": ["src/data/dc_octree.cpp: checkTopoSafety"]}
{"id": "C26", "title": "DC octree vertices lie in their leaves", "statement": "Every vertex of a heterogeneous leaf lies in the closed box of that leaf.", "quantifier": "every grid, epsilon", "why_tests_cant": "numeric results of QEF minimisation", "anchors": ["src/data/dc_octree.cpp: buildLeaf, buildNode, solveQef"]}
{"id": "C27", "title": "Manifold DC edge-set table agrees with the geometry", "statement": "For each corner pattern, a cell edge is given a set index iff it crosses; set indices are 0..n-1 without gaps with n <= 4; edges of one marching-cubes surface component share a set. (Four patterns merge two components.)", "quantifier": "all corner patterns (whole domain)", "why_tests_cant": "table data", "anchors": ["src/util/tables.cpp: kMdcEdgeSetIndex"]}
{"id": "C28", "title": "MDC contouring completes, is repeatable and uses only existing vertices for any epsilon", "statement": "After building an MDC octree from a filled grid, any sequence of contour() calls with arbitrary error bounds completes, the mesh returned for a bound does not depend on earlier calls, it has exactly the two triangles (minus degenerate ones) for each surface-crossing grid edge inside the octree's cube, all its indices are valid and no triangle has equal corners.", "quantifier": "every filled grid, octree size, sequence of epsilons", "why_tests_cant": "all sign configurations, collapse patterns and call histories", "anchors": ["src/data/mdc_octree.cpp: build, contour, clusterCell", "src/data/mdc_octree_node.cpp"]}
{"id": "C29", "title": "The MDC surface is closed and consistently oriented for any epsilon", "statement": "In the mesh contoured with any error bound every directed triangle side occurs as often as its reverse, except between vertices that stand for the same surface-crossing edge on the boundary of the octree's cube; in particular a surface that does not reach this boundary gives a closed mesh.", "quantifier": "every filled grid, epsilon", "why_tests_cant": "all sign configurations, all collapse patterns", "anchors": ["src/data/mdc_octree.cpp: edgeProcLeaves, clusterCell, contour"]}
{"id": "C30", "title": "Disjoint set union computes the generated equivalence", "statement": "After any sequence of unions over items 0..n-1, two items have the same representative iff they are connected by a chain of performed unions; find terminates, and its path compression does not change any representative; representatives are members of their class.", "quantifier": "every sequence of operations over any number of items", "why_tests_cant": "all operation histories", "anchors": ["src/private/disjoint_set_union.hpp"]}
{"id": "C31", "title": "Fast material filter: majority and non-emptiness", "statement": "After adding any sequence of materials to MaterialFilterFast, the selected material is one of the added non-Empty materials if any was added, Empty otherwise; if a material is a strict majority of the non-Empty ones, it is the one selected.", "quantifier": "every finite sequence of materials", "why_tests_cant": "unbounded sequences", "anchors": ["include/isomesh/util/material_filter.hpp", "src/util/material_filter.cpp"]}
{"id": "C32", "title": "Merging fast material filters", "statement": "Merging filters selects the strict majority material of the union of their inputs.  (Expected by a user; the code violates it. Provable: the result is one of the inputs' materials, non-Empty if any is, and is the majority material when its margin exceeds the number of merges.)", "quantifier": "every tree of merges and additions", "why_tests_cant": "unbounded histories", "anchors": ["include/isomesh/util/material_filter.hpp: add(const MaterialFilter...&)"]}
{"id": "C33", "title": "Precise material filter selects a most frequent material", "statement": "MaterialFilterPrecise's selection is Empty iff nothing non-Empty was added, otherwise a non-Empty material of maximal count (the first one in declaration order among equally frequent ones), order of additions and merges notwithstanding.", "quantifier": "every history of additions and merges", "why_tests_cant": "unbounded histories", "anchors": ["include/isomesh/util/material_filter.hpp", "src/util/material_filter.cpp"]}
{"id": "C34", "title": "Mesh container invariants", "statement": "addVertex returns the index of the new vertex and never changes or moves existing ones; addTriangle with three different indices appends exactly those three and with a repeated index does nothing; clear empties the mesh; after any history the index count is three times the number of stored triangles, every index is valid and no triangle repeats an index.", "quantifier": "every sequence of mesh operations", "why_tests_cant": "all histories", "anchors": ["include/isomesh/data/mesh.hpp", "src/data/mesh.cpp"]}
{"id": "C35", "title": "3D QEF error equals the sum of squared plane distances", "statement": "After adding any sequence of planes (with intermediate compressions whenever the buffer fills), eval at any point equals the sum over all planes of squared distances, in exact arithmetic.", "quantifier": "every sequence of planes, every point", "why_tests_cant": "unbounded sequences and real inputs; compressions happen at data-dependent times", "anchors": ["src/qef/qef_solver_3d.cpp", "src/qef/householder.hpp"]}
{"id": "C36", "title": "QEF merging is additive and mass points are order independent", "statement": "Merging two solvers' states yields the error function that is the sum of both; the mass point merge is commutative and associative: it averages the points of the highest feature dimension.", "quantifier": "every pair/sequence of states", "why_tests_cant": "all numeric inputs and merge orders", "anchors": ["src/qef/qef_solver_3d.cpp: merge", "include/isomesh/qef/qef_solver_3d.hpp"]}
{"id": "C37", "title": "QEF row buffer never overflows", "statement": "Whatever the sequence of addPlane, merge, compress and solve calls, the number of used rows never exceeds the fixed buffer size and every row access is in bounds.", "quantifier": "every sequence of operations", "why_tests_cant": "all operation histories", "anchors": ["src/qef/qef_solver_3d.cpp", "src/qef/qef_solver_4d.cpp"]}
{"id": "C38", "title": "QEF solution is clamped to the given box and optimal when unclamped and well conditioned", "statement": "solve(min,max) returns a point inside the box whenever min <= max componentwise; if the eigen decomposition is exact and no singular value is truncated, the unclamped solution minimises the error.", "quantifier": "every sequence of planes and box", "why_tests_cant": "real-valued inputs", "anchors": ["src/qef/qef_solver_3d.cpp: solve"]}
{"id": "C39", "title": "4D QEF: same guarantees", "statement": "C35, C36, C37, C38 hold for the four-dimensional solver.", "quantifier": "every sequence of 4D planes", "why_tests_cant": "as for 3D", "anchors": ["src/qef/qef_solver_4d.cpp", "include/isomesh/qef/qef_solver_4d.hpp"]}
{"id": "C40", "title": "Reconstructed surface normal", "statement": "For any gradient, the stored edge record's surfaceNormal is a unit vector whose Y sign agrees with the gradient, is within a vanishing distance of the normalised gradient for nonzero gradients, and surfacePoint lies on the edge when offset is in [0,1].", "quantifier": "every gradient and offset", "why_tests_cant": "real-valued inputs", "anchors": ["src/data/grid_edge_storage.cpp: UniformGridEdge, surfaceNormal, surfacePoint"]}
{"id": "C41", "title": "Triangle octree keeps every inserted triangle", "statement": "Every triangle inserted into the mesh field's octree is found in some leaf afterwards. (Expected by a user; the code violates it: a triangle that triggers a split is dropped. Provable: until a leaf overflows nothing is lost, and previously stored triangles survive a split.)", "quantifier": "every sequence of insertions", "why_tests_cant": "all histories", "anchors": ["src/private/octree.cpp: insert"]}
{"id": "C42", "title": "Nearest triangle search returns the nearest stored triangle", "statement": "The nearest-triangle query returns a stored triangle minimising the distance. (Violated: pruning uses boxes that need not contain the triangles. Provable: the result is a stored triangle, and is nearest whenever every triangle is inside the box of every node it is stored under.)", "quantifier": "every stored set and query point", "why_tests_cant": "all histories and points", "anchors": ["src/private/octree.cpp: nearTriangle"]}
{"id": "C43", "title": "Point-triangle distance", "statement": "For a non-degenerate triangle the reported distance is the distance to the closest point of the closed triangle.", "quantifier": "every point and non-degenerate triangle", "why_tests_cant": "real-valued inputs, seven Voronoi regions", "anchors": ["src/private/octree.cpp"]}
{"id": "C44", "title": "PLY normalisation centres the model in the cube [-16,16]^3", "statement": "After loading a PLY file all vertices lie in the cube [-16,16]^3, the bounding box is centred at the origin and its largest extent is 32. (The code violates the second half when all coordinates on an axis are negative, since the maximum search starts from the smallest positive float; containment always holds unless all vertices coincide.)", "quantifier": "every vertex list", "why_tests_cant": "real-valued inputs", "anchors": ["src/private/ply_data.cpp", "src/field/mesh_field.cpp"]}
{"id": "C45", "title": "Winding inversion is an involution on triangles", "statement": "Switching the winding order of loaded PLY data reverses every triangle's orientation, keeps its vertex set and is undone by switching back.", "quantifier": "every triangle list", "why_tests_cant": "all lists", "anchors": ["src/private/ply_data.cpp: setWindingOrder, triangleIndexs"]}
{"id": "C46", "title": "Heightmap sampling stays in bounds", "statement": "For any world coordinates the heightmap lookups stay inside the image and the sampled height lies between the least and greatest pixel, hence in the given range; between lattice positions it is the bilinear interpolation of the nearest pixels, at a lattice position that pixel's height, and beyond the border it is constant outwards. (World x runs along image rows, z along columns: for an image that is not square the documented position of the central pixel is wrong.)", "quantifier": "every image, every coordinate", "why_tests_cant": "all image sizes and real coordinates", "anchors": ["src/field/heightmap.cpp"]}
{"id": "C47", "title": "Heightmap sign convention", "statement": "The heightmap field value is negative below the surface, positive above and zero on it, and grows exactly with y; without image the surface is the plane through the centre; moving the centre moves the surface along, changing the pixel size scales it horizontally about the centre, changing the height range moves the heights by the affine map between the ranges, and none of the setters loads or drops the image; failed loads are reported and never leave a half-loaded image.", "quantifier": "every image and point", "why_tests_cant": "real-valued inputs", "anchors": ["src/field/heightmap.cpp"]}
{"id": "C48", "title": "DMC nodes' materials are initialised before use", "statement": "Every material read during DMC contouring was written during build. (Violated: nodes with positive value leave it uninitialised and are then read; what holds is that all reads are of written materials exactly if at each dual edge with a sign change the lower leaf is inside with a non-empty material, and that positions, normals and triangles never depend on the uninitialised data.)", "quantifier": "every grid", "why_tests_cant": "depends on which nodes are refined", "anchors": ["src/data/dmc_octree.cpp", "src/data/dmc_octree_node.cpp"]}
{"id": "C49", "title": "DMC interpolates the zero of the linear interpolant", "statement": "For dual vertices of opposite sign the generated vertex is the unique zero of the linear interpolant, strictly between the endpoints.", "quantifier": "all real endpoint values of opposite signs", "why_tests_cant": "real-valued inputs", "anchors": ["src/data/dmc_octree.cpp: vertProc"]}
{"id": "C50", "title": "DMC mesh indices are valid and vertices are shared per dual edge", "statement": "Every index emitted by DMC contouring is below the vertex count and two cells sharing a dual edge share the vertex.", "quantifier": "every octree and dual vertex assignment", "why_tests_cant": "all tree shapes", "anchors": ["src/data/dmc_octree.cpp: contour"]}
{"id": "C51", "title": "DMC visits every interior octree vertex exactly once", "statement": "The cell/face/edge/vertex recursion calls the dual cell routine exactly once per minimal interior vertex with the eight leaves around it.", "quantifier": "every octree", "why_tests_cant": "unbounded tree shapes", "anchors": ["src/data/dmc_octree.cpp: cellProc, faceProc, edgeProc, vertProc"]}
{"id": "C52", "title": "Octree construction accepts exactly powers of two", "statement": "Constructing a DC/MDC/DMC octree succeeds iff the root size is a power of two (and nonzero).", "quantifier": "every 32-bit size", "why_tests_cant": "2^32 inputs", "anchors": ["src/data/dc_octree.cpp", "src/data/mdc_octree.cpp", "src/data/dmc_octree.cpp"]}
{"id": "C53", "title": "DMC build yields a full tree bounded by the root size", "statement": "Building terminates with a tree in which every inner node has eight children of half its size and leaves have size at least one, tiling the root cube.", "quantifier": "every root size, field and epsilon", "why_tests_cant": "all refinement patterns", "anchors": ["src/data/dmc_octree.cpp: build, buildNode"]}
{"id": "C54", "title": "Jacobi rotations preserve the matrix up to similarity", "statement": "Each Jacobi step keeps A = U D U^T with U orthogonal and D symmetric, does not change the trace or the Frobenius norm and zeroes the pivot.", "quantifier": "every symmetric matrix and number of sweeps", "why_tests_cant": "real-valued inputs, unbounded sweeps", "anchors": ["src/qef/jacobi.hpp"]}
{"id": "C55", "title": "Exported PLY mirrors the mesh", "statement": "Writing a mesh to PLY and reading the element arrays back gives the same vertices and triangles, in order.", "quantifier": "every mesh", "why_tests_cant": "all meshes", "anchors": ["src/export/mesh2ply.cpp", "src/util/ply_mesh.cpp"]}
{"id": "C56", "title": "Local/global coordinate maps are inverse", "statement": "localToGlobal and globalToLocal are mutually inverse for every nonzero grid step, and map the vertex lattice affinely.", "quantifier": "every grid position, nonzero step and point", "why_tests_cant": "real-valued inputs", "anchors": ["include/isomesh/data/grid.hpp: localToGlobal, globalToLocal"]}
{"id": "C57", "title": "A reset QEF solver is as good as new", "statement": "After reset, whatever calls were made before, every further sequence of calls behaves exactly as on a newly constructed solver with the same options: no plane, merged state, mass point or feature dimension survives.", "quantifier": "every history before and after the reset", "why_tests_cant": "histories are unbounded and states real valued", "anchors": ["src/qef/qef_solver_3d.cpp: reset", "src/qef/qef_solver_4d.cpp: reset"]}
{"id": "C58", "title": "The DC octree surface is closed and consistently oriented for any simplification", "statement": "In the mesh of a DC octree built from a filled grid with any error bound, simplified or not, every directed triangle side occurs as often as its reverse, except between leaves that share a surface-crossing grid edge on the boundary of the octree's cube; in particular, if the surface does not reach that boundary the mesh is closed: adaptive leaves of different sizes leave no cracks.", "quantifier": "every filled grid, epsilon, flag and resulting tree shape", "why_tests_cant": "cracks appear only for particular combinations of leaf sizes and signs", "anchors": ["src/data/dc_octree.cpp: cellProc, faceProc, edgeProc, contour"]}
{"id": "C59", "title": "What an MDC vertex stands for", "statement": "For any error bound every vertex lies in a closed octree cube, all edge crossings it stands for lie in this cube and are connected by the surface inside the cube, its position is the box-constrained solution of the joint error system of exactly these crossings, its error is within the bound unless it belongs to a single cell, and its material is that of a solid end of one of its edges. With a negative bound there is one vertex for each sheet of the surface in each cell; with a great enough bound one for each connected part of the surface.", "quantifier": "every filled grid, epsilon, vertex", "why_tests_cant": "clusters of unbounded size and shape", "anchors": ["src/data/mdc_octree.cpp: buildLeaf, clusterCell, addVerticesToMesh", "src/data/mdc_octree_node.cpp"]}
{"id": "C60", "title": "Raising the MDC error bound only merges vertices", "statement": "For two bounds the vertices for the smaller one map onto those for the greater one: crossings sharing a vertex keep sharing one, and the number of vertices does not grow.", "quantifier": "every filled grid, all pairs of epsilons", "why_tests_cant": "all pairs of bounds", "anchors": ["src/data/mdc_octree.cpp: addVerticesToMesh", "src/data/mdc_octree_node.cpp"]}
{"id": "C61", "title": "DMC dual vertices stay in their cells", "statement": "After build the dual vertex of every leaf lies in the closed cell of the leaf, its value is zero or what the solver finds with a free value when the error of a vertex with value zero exceeds the bound, and every vertex of the contour mesh lies in the root cube.", "quantifier": "every field, options, random offsets and tree", "why_tests_cant": "real-valued fields, unbounded trees", "anchors": ["src/data/dmc_octree.cpp: generateDualVertex, contour"]}
{"id": "C62", "title": "The DMC surface is closed", "statement": "In the mesh of a DMC octree every directed triangle side occurs as often as its reverse, except between vertices on dual edges whose leaves all touch one side of the root cube; so if the surface does not reach the sides of the root cube, the mesh is closed, however leaf sizes vary.", "quantifier": "every octree and assignment of dual vertices", "why_tests_cant": "cracks and ambiguous cases appear only for particular combinations of leaf sizes and signs", "anchors": ["src/data/dmc_octree.cpp: contour", "src/util/tables.cpp"]}
{"id": "C63", "title": "DMC refinement criteria", "statement": "With the simple policy a cell of more than unit size other than the root is subdivided exactly if the sum over its edge, face and cell midpoints of the (gradient-scaled) errors of trilinear interpolation exceeds the scaled tolerance; without it, every cell larger than an eighth of the root is subdivided and smaller ones are when the fit error exceeds the tolerance; for a field that changes by at most the distance, early stop only keeps cells that do not meet the surface.", "quantifier": "every field, cell, tolerance", "why_tests_cant": "real-valued fields", "anchors": ["src/data/dmc_octree.cpp: buildNode, shouldSplit, shouldStopSplitting"]}
{"id": "C64", "title": "Field of a mesh", "statement": "Loading a PLY file with complete buffers and valid indices succeeds; the search box contains all vertices and is no larger than their range; the absolute value of the field is the distance to some triangle of the mesh, so never less than the distance to the mesh, and with at most sixty triangles it is exactly that distance, negative on the back of the nearest triangle; the gradient is exact where the field is affine. (For more than sixty triangles exactness fails, see C41 and C42.)", "quantifier": "every file, winding order and point", "why_tests_cant": "real-valued inputs, unbounded meshes", "anchors": ["src/field/mesh_field.cpp", "src/private/octree.cpp", "src/private/ply_data.cpp"]}
{"id": "C65", "title": "Heightmap fields are continuous with bounded slope", "statement": "The surface of a heightmap changes along each horizontal axis at most as fast as the greatest step between neighbouring pixels per pixel size, across cell borders and the image border too; the gradient has y component 1, its other components obey the same bound, and in the middle half of each cell it is the exact slope of the surface.", "quantifier": "every image, settings and pair of points", "why_tests_cant": "real-valued inputs", "anchors": ["src/field/heightmap.cpp: value, grad"]}
{"id": "C66", "title": "Failed allocations during the build of a DC octree", "statement": "Wherever an allocation fails during build, the exception reaches the caller and the octree is left as a single new leaf, every node of the old and of the unfinished tree is freed exactly once and nothing else is touched; if enough allocations succeed, the octree is a full tree owning exactly the live nodes; destroying the octree frees each of its nodes once. (Violated when the root holds leaf data, i.e. when an octree that was collapsed into a single leaf is built again and one of the first eight allocations fails: an invalid pointer is deleted.)", "quantifier": "every crash point, octree history, grid and collapse decisions", "why_tests_cant": "every allocation is a crash point; failures cannot be injected at all of them", "anchors": ["src/data/dc_octree_node.cpp", "src/data/dc_octree.cpp: build, buildNode"]}
{"id": "C67", "title": "Failed allocations during the build of MDC and DMC octrees", "statement": "From any octree, build never frees a block twice, uses a freed one or leaks: if enough allocations succeed, the octree is subdivided as planned and owns exactly its blocks, the old ones are freed; wherever an allocation fails, the exception is passed on, the root is a leaf and every block of the old and the unfinished tree is freed; destruction frees each block once; nothing else changes.", "quantifier": "every crash point, octree history, grid or field", "why_tests_cant": "every allocation is a crash point; failures cannot be injected at all of them", "anchors": ["src/data/mdc_octree_node.cpp", "src/data/dmc_octree_node.cpp", "src/data/mdc_octree.cpp: build, buildNode", "src/data/dmc_octree.cpp: build, buildNode"]}
{"id": "C68", "title": "MDC octrees can be used again", "statement": "After any history of completed builds, builds ended by an exception and contour calls, build on a filled grid behaves as on a new octree: it completes exactly if the new one does, leaves the solver in the same state, and every mesh returned afterwards, for any sequence of error bounds, is the one the new octree would give.", "quantifier": "every history of operations, grid, solver and error bound", "why_tests_cant": "unbounded histories; stale members of the root survive collapse", "anchors": ["src/data/mdc_octree.cpp: build, buildLeaf, clusterCell, contour", "src/data/mdc_octree_node.cpp: collapse"]}
{"id": "C69", "title": "Meshes stay near the true surface", "statement": "For a field that is continuous along the grid lines, every triangle of a mesh is close to a true zero of the field: all points of the triangle are within sqrt(3) grid steps of one point where the field is exactly zero, for marching cubes with either zero finder, for uniform dual contouring with any zero finder and solver options, for DC octrees built without simplification and for MDC octrees contoured with a negative error bound; with simplification the distance grows with the largest leaf the surface passes through. With the bisection solver every marching cubes vertex is within step / 2^n of a true zero on its own grid edge.", "quantifier": "every field, grid, zero finder, solver option, triangle and point of it", "why_tests_cant": "a statement about all points of all triangles of all fields; tests compare a few shapes visually", "anchors": ["src/algo/marching_cubes.cpp", "src/algo/uniform_dual_contouring.cpp", "src/data/dc_octree.cpp: contour", "src/data/mdc_octree.cpp: contour", "src/util/bisection_zero_finder.cpp", "src/util/regula_falsi_zero_finder.cpp"]}
{"id": "C70", "title": "Flat surfaces are reproduced exactly", "statement": "For a field that is affine with its exact gradient, in exact arithmetic and with the regula falsi solver (any number of steps), the zero of every crossed grid edge is exact and every point of every triangle lies exactly on the plane: for marching cubes, for uniform dual contouring, for DC octrees with and without simplification and any error bound, for MDC octrees with any history of error bounds, for any solver options; the vertex normals of dual contouring are the normal of the plane. For DMC octrees the value of the field at every point of the mesh is at most the square root of the error bound, and zero if that is zero. (Directions whose stored normal is rounded by the epsilon term, or has a tiny non-zero component, are excluded.)", "quantifier": "every plane, grid, step count, error bound and solver option", "why_tests_cant": "all planes and all solver options: clamping to the cell, ranks one to three and the averaging of normals interact", "anchors": ["src/util/regula_falsi_zero_finder.cpp", "src/qef/qef_solver_3d.cpp", "src/qef/qef_solver_4d.cpp", "src/algo/marching_cubes.cpp", "src/algo/uniform_dual_contouring.cpp", "src/data/dc_octree.cpp", "src/data/mdc_octree.cpp", "src/data/dmc_octree.cpp"]}
{"id": "C71", "title": "Simplification of a flat surface", "statement": "For a half-space of one material, every cube passes the topology test and has error zero, so a DC octree simplified with any error bound that is not negative always becomes a single leaf and its mesh has no triangles: a flat surface through the whole octree disappears from the mesh. (This is what the code does; a user would expect two triangles. Without simplification the surface is meshed, see C23, C70.)", "quantifier": "every half-space, grid, error bound and solver option", "why_tests_cant": "all planes and sizes; rounding hides it in tests", "anchors": ["src/data/dc_octree.cpp: buildNode, checkTopoSafety, contour"]}
{"id": "C72", "title": "No pinched vertices", "statement": "In every mesh of marching cubes the triangles around each vertex form one fan: one can go from any of them to any other crossing only sides that end in that vertex, so no two sheets of the surface touch in a single vertex. A vertex of an MDC octree contoured with a negative error bound has this property exactly if the empty corners of its cell are not just two opposite ones, and a vertex of uniform dual contouring exactly if neither the solid nor the empty corners of its cell are just two opposite ones. (So both dual methods do produce pinched, non-manifold vertices for such cells, the MDC one although the method is meant to be manifold; see the findings in DESIGN.md.)", "quantifier": "every filled grid, field, zero finder, solver option, vertex and pair of triangles", "why_tests_cant": "the local configuration of all cells around each vertex of every grid", "anchors": ["src/algo/marching_cubes.cpp", "src/algo/uniform_dual_contouring.cpp", "src/data/mdc_octree.cpp: buildLeaf, contour", "src/util/tables.cpp"]}
{"id": "C73", "title": "Grids and marching cubes do not depend on exact arithmetic", "statement": "Whatever the results of floating point additions, multiplications and divisions are, fill succeeds on every grid, gives each vertex the material the field has at the position at which it was sampled, and stores exactly one record for each grid edge whose endpoints were sampled with different signs, with the coordinate returned by the zero finder, the gradient there and the material of the solid endpoint; findEdge finds exactly these records; refilling forgets the old contents.", "quantifier": "every arithmetic, grid, history of fills, field and zero finder", "why_tests_cant": "all rounding modes, precisions and compilers", "anchors": ["src/data/grid.cpp: fill", "src/data/grid_edge_storage.cpp", "src/algo/marching_cubes.cpp"]}
{"id": "C74", "title": "Zero finders and surface points with rounded arithmetic", "statement": "In every floating point format and rounding mode bisection stays on the segment it searches and evaluates the field only there; with rounding to nearest and values of opposite signs at the ends it ends with a sign change of the evaluated field within length / 2^n plus two rounding errors of the coordinates, of which it returns the end with the smaller value; regula falsi never divides by zero and stays within ten rounding errors per step of the segment (and does leave it). Offsets stored by fill with bisection are never negative, and with double coordinates and float records the surface point of every record is on its edge unless the grid is more than 2^28 steps away from the origin. The positions at which the field is sampled differ from the exact lattice positions by at most 2*size+3 rounding errors.", "quantifier": "every format, rounding rule, field, segment, number of steps, grid and edge", "why_tests_cant": "rounding errors depend on all bits of all inputs", "anchors": ["src/util/bisection_zero_finder.cpp", "src/util/regula_falsi_zero_finder.cpp", "src/data/grid.cpp: fill", "src/data/grid_edge_storage.cpp: UniformGridEdge, surfacePoint"]}
{"id": "C75", "title": "Meshes do not depend on exact arithmetic", "statement": "Fill a grid in double, convert its records to float and make the mesh in float, with any rounding mode and whatever sqrt, atan, sin and cos return: marching cubes, uniform dual contouring, building and contouring a DC octree with any error bound, building an MDC octree and contouring it with any bounds one after another, and building and contouring a DMC octree never fail (the latter if bytes that were never written can be read); all indices are valid; there is one vertex per crossing edge (marching cubes), per crossing cell and inside that cell (dual contouring), per leaf with corners of both kinds and inside that leaf (DC octree); and if the field is positive at all sampled points of the border of the grid or octree, the surface is watertight. (For DMC: if leaves on the same side of the root do not differ in sign.)", "quantifier": "every pair of floating point formats and rounding modes, field, zero finder, grid, octree size, error bound and solver option", "why_tests_cant": "rounding errors depend on all bits of all inputs, the number of grids is unbounded", "anchors": ["src/data/grid.cpp: fill", "src/data/grid_edge_storage.cpp", "src/algo/marching_cubes.cpp", "src/algo/uniform_dual_contouring.cpp", "src/data/dc_octree.cpp", "src/data/mdc_octree.cpp", "src/data/dmc_octree.cpp", "src/qef/qef_solver_3d.cpp", "src/qef/qef_solver_4d.cpp"]}
{"id": "C76", "title": "No cracks between separately meshed chunks", "statement": "A world is cut into grids of one size and step that lie next to each other; any finite set of them is filled from one field and each is meshed on its own with marching cubes. In exact arithmetic, or with rounding if the lattice coordinates are representable, vertices of different chunks on a common grid edge coincide in position, normal and material, every directed triangle side occurs at most once over all chunks and is matched by one in the opposite direction in the same or a neighbouring chunk, except where a covered cell borders on a cell outside all chunks; if the field is positive there, all meshes together are watertight. (With double arithmetic and a step like 1 + 3/2^52 at x = 10 the neighbours sample their common plane at different places and the meshes need not fit.)", "quantifier": "every finite set of chunks, field, zero finder, grid size, step and position", "why_tests_cant": "unbounded families of grids; agreement of all configurations on both sides of every common face", "anchors": ["src/data/grid.cpp: fill", "src/algo/marching_cubes.cpp", "src/util/tables.cpp"]}
{"id": "C77", "title": "Results do not depend on position and scale", "statement": "Scale and move a body, the grid around it and the octree by the same factor s and vector t (field values scale with lengths, gradients and materials stay). With either zero finder of the library fill then stores the same materials and edge records; marching cubes, uniform dual contouring, DC octrees, MDC octrees (error bounds scaled by s squared) and DMC octrees without the simple splitting policy, or with it if s is 1, give the same vertices, normals, materials and triangles, placed at the scaled and moved position. (The simple splitting policy of DMC octrees compares an error in units of length with a bound in squared units and does depend on the scale; a concrete case is proved.)", "quantifier": "every field, factor, vector, grid, history, zero finder step count, error bound and solver option (exact arithmetic)", "why_tests_cant": "all positions and scales; units of every intermediate quantity", "anchors": ["src/data/grid.cpp: fill", "src/util/bisection_zero_finder.cpp", "src/util/regula_falsi_zero_finder.cpp", "src/algo/marching_cubes.cpp", "src/algo/uniform_dual_contouring.cpp", "src/data/dc_octree.cpp: build, contour", "src/data/mdc_octree.cpp: build, contour", "src/data/dmc_octree.cpp: build, shouldSplit, generateDualVertex"]}
{"id": "C78", "title": "Results do not depend on the order of planes, states and edges", "statement": "In exact arithmetic a QEF solver fed the same planes, or the same states of other solvers, in any order after reset gives the same point and feature dimension, in 3D and 4D: the answer depends only on the error function, the mass data and the options. Hence a cell has only one dual contouring vertex, the mesh of uniform dual contouring does not depend on how the unstable std::sort orders the edges of a cell nor on earlier use of the solver, and a DC octree without simplification puts exactly the same vertex into each cell as uniform dual contouring.", "quantifier": "every list of planes or states and permutation of it, every grid, pair of sorting algorithms, solver option and threshold small enough not to be met", "why_tests_cant": "all permutations and all compressions of the row buffer", "anchors": ["src/qef/qef_solver_3d.cpp", "src/qef/qef_solver_4d.cpp", "src/algo/uniform_dual_contouring.cpp", "src/data/dc_octree.cpp: buildLeaf"]}
{"id": "C79", "title": "Copies of octree objects", "statement": "The octree classes have an implicit copy constructor. Copying never fails, and as long as neither object is changed both are intact octrees that share every node below the root. If the root is subdivided, destroying either one frees all of these nodes and destroying the other one afterwards is undefined behaviour, in either order, for DC, MDC and DMC octrees. Copies of an octree that is a single leaf can be destroyed in any order, each freeing only its own root. (This is what the code does; copies of subdivided octrees must not be made.)", "quantifier": "every octree state and order of destruction", "why_tests_cant": "the double free need not crash in a test run", "anchors": ["include/isomesh/data/dc_octree.hpp", "include/isomesh/data/mdc_octree.hpp", "include/isomesh/data/dmc_octree.hpp", "src/data/dc_octree_node.cpp: ~DC_OctreeNode, collapse", "src/data/mdc_octree_node.cpp", "src/data/dmc_octree_node.cpp"]}
{"id": "C80", "title": "Memory and crash points of the mesh field", "statement": "Whatever allocation fails and however std::vector grows, MeshField::load and the insertions into its triangle octree follow only valid pointers; every node they allocate belongs to the tree of the field and nothing else changes. A failed insertion adds at most the new triangle and loses at most the triangles of one full leaf (all sixty of them if no child could be allocated). A failed load leaves the field unchanged if reading the file failed; it leaves a pointer to the freed old tree if the allocation of the new root failed, after which every query and every further load is undefined behaviour; otherwise it leaves the tree of the first triangles. A successful load frees the old tree and gives the tree of C64. Over any history of loads the nodes in memory are exactly those of the current tree. Queries on the nodes in memory give the value and gradient of C64 and end the program if an allocation fails; queries before the first load are undefined.", "quantifier": "every history of loads, file, growth policy and failing allocation", "why_tests_cant": "crash points inside an insertion, dangling pointers that need not crash, all histories", "anchors": ["src/private/octree.hpp", "src/private/octree.cpp: insert, insertAsNode, insertByIndex, nearTriangle, ~TriangleOctree", "src/field/mesh_field.cpp: load, value, grad"]}
{"id": "C81", "title": "Volume enclosed by marching cubes meshes", "statement": "Fill a grid with a field whose solid does not reach the border of the grid, with a zero finder that stays on the edges. The signed volume enclosed by the marching cubes mesh (in world coordinates, positive if the triangles face outwards) is at least step^3 times the number of cells with all corners in the solid and at most step^3 times the number of cells with some corner in the solid. So it is never negative, and it differs from the volume of the fully solid cells by no more than the volume of the cells with corners of both kinds.", "quantifier": "every grid, history of fills, field, zero finder and surface position on the edges (exact arithmetic)", "why_tests_cant": "all 256 cell configurations with all real positions on up to twelve edges, in grids of any size", "anchors": ["src/algo/marching_cubes.cpp", "src/util/tables.cpp: kMcTriangleTable", "src/data/grid.cpp: fill"]}
{"id": "C82", "title": "Exceptions during fill", "statement": "UniformGrid::fill can throw if there is no memory or if the zero finder throws. Whatever throws, and after any history of calls that returned or threw, fill reads and writes only inside its arrays. If there is no memory for the values, the grid is unchanged; otherwise an exception leaves the new materials, the complete new records along the axes already done, the new records before the edge of the exception along the current axis, and the old records along the remaining axes. Such a grid need not be consistent (a concrete case is proved where marching cubes violates its assertion on it), but the next call of fill that returns gives exactly the grid that it gives on a new object of the same size and place.", "quantifier": "every history of calls, field, zero finder and place of the exception", "why_tests_cant": "crash points in the middle of a loop over an unbounded number of edges, after arbitrary histories", "anchors": ["src/data/grid.cpp: fill", "include/isomesh/data/grid_edge_storage.hpp: addEdge, clear", "include/isomesh/util/zero_finder.hpp: findAlongX, findAlongY, findAlongZ", "include/isomesh/field/scalar_field.hpp: noexcept"]}
{"id": "C83", "title": "Edits are local: changing the field inside a region only changes the mesh in the grid cells the region touches", "statement": "Let two fields give the same answers (value, gradient, material) at every point outside a region U, and let the same grid (any size, position and positive step) be filled from each of them, with either zero finder of the library or any other zero finder that looks only at the edge it was asked about and stays on it. Then grid points outside U get the same material and edges outside U the same record. The marching cubes meshes of the two grids consist of a common list of triangles - the same vertex positions, normals and materials - and a rest; every triangle of the rest, of either mesh, lies in a single cell of the grid that contains a point of U. The same holds for uniform dual contouring with the quads around grid edges: every triangle not in the common list belongs to a grid edge with a touched cell around it and has its vertices in the cells around that edge (threshold for small columns small enough, as in C78). So an editor may re-mesh only the touched cells, and an edit never shows up anywhere else.", "quantifier": "all pairs of fields, all regions, all grids, all step counts and all such zero finders", "why_tests_cant": "A test edits one field in one place; the claim ranges over all fields, regions and grids, and a single access to a value or a record of a neighbouring cell, or a zero finder that looks outside its edge, would break it only for particular edits.", "anchors": ["src/data/grid.cpp: UniformGrid::fill", "src/algo/marching_cubes.cpp: marchingCubes", "src/algo/uniform_dual_contouring.cpp: dualContouring", "src/util/bisection_zero_finder.cpp: findAlongC", "src/util/regula_falsi_zero_finder.cpp: findAlongC"]}
{"id": "C84", "title": "The connectivity of a mesh depends only on the signs of the field at the grid points", "statement": "Fill two grids of the same size - anywhere, with any steps, from any two fields and with any two zero finders - such that at corresponding grid points either both fields are positive or neither is. Then marching cubes gives both meshes the same number of vertices and exactly the same index list, the vertices with the same number lying on the same grid edge; and uniform dual contouring gives both meshes the same number of vertices and the same index list, whatever the options of the QEF solvers, the fast-normalisation tolerances and the sort used. Field values, gradients, materials, solver step counts and rounding only move vertices; they never change which vertices are joined. This holds in any arithmetic (also rounded).", "quantifier": "all pairs of grids, fields and zero finders, all solver options, any arithmetic", "why_tests_cant": "The claim compares two unbounded families of inputs; a test compares two samples. An index that depended on a value (for example a vertex merged because its offset is 0) would only show for particular fields.", "anchors": ["src/data/grid.cpp: UniformGrid::fill", "src/algo/marching_cubes.cpp: marchingCubes", "src/algo/uniform_dual_contouring.cpp: dualContouring"]}
{"id": "C85", "title": "NaN in the field: what fill and marching cubes do, exactly", "statement": "Let the field, its gradient and the zero finder return anything, NaN and infinities included, in any arithmetic. Then (a) fill always succeeds and leaves a material at every grid point and sorted records of different edges of the grid; (b) if the field returns a number at every grid point, materials and records are consistent and marching cubes succeeds with valid indices and a mesh closed inside the grid, even when all gradients, all answers of the zero finder and all values between the grid points are NaN; (c) marching cubes violates its assertion (a release build reads uninitialised vertex numbers) if and only if some cell has a corner at which the field returned NaN but named a material, and a corner with a non-positive value; (d) this does happen.", "quantifier": "all grid histories, all fields (with a material wherever the value is non-positive), all zero finders, any arithmetic and comparisons in which no value is both positive and non-positive", "why_tests_cant": "NaN breaks trichotomy, on which the two tests 'value > 0' and 'value <= 0' in the code silently rely; the exact condition ranges over all positions of NaNs in all grids.", "anchors": ["src/data/grid.cpp: UniformGrid::fill", "src/algo/marching_cubes.cpp: marchingCubes", "include/isomesh/field/scalar_field.hpp: ScalarField"]}
{"id": "C86", "title": "fill with a field that is not a function (caches, counters, random numbers)", "statement": "Let the answers of the field and of the zero finder depend in any way on all calls made before. Then fill still succeeds; it makes exactly these calls in this order: for every grid point (z fastest, then x, then y) one value and, unless the value is positive, one material; then for x, y and z in turn, for every edge whose two recorded values disagree in sign, one call of the finder with the recorded values and one of the gradient at the point found. The grid left is determined by these answers alone: each value is asked once and never again, so materials and edge records always agree and (if non-positive points have a material and no value is NaN) the grid is consistent and can be meshed, even if the field contradicts itself. The number of values is (size+1)^3, and there is one finder call and one gradient call per stored edge. For ordinary fields this is the fill of all other properties.", "quantifier": "all grids, all user code with any hidden state, all histories of earlier calls", "why_tests_cant": "A test sees one stateful field; the claim is about all answers to all questions, and about the exact order and number of calls.", "anchors": ["src/data/grid.cpp: UniformGrid::fill", "include/isomesh/field/scalar_field.hpp: ScalarField", "include/isomesh/data/grid.hpp: UniformGrid"]}
{"id": "C87", "title": "zero finders with a field that contradicts itself", "statement": "Let the field answer anything at each evaluation, also different values for the same point. Bisection evaluates it at most max(1, steps) times, only at points of the segment, and returns an end of the segment or one of those points. Regula falsi, if the given end values have opposite signs, never divides by zero, evaluates the field at least once and at most max(1, steps) times, each time at another point strictly inside the segment, and returns the last of these points. For ordinary fields these are the finders of all other properties.", "quantifier": "all answers, all segments, all end values (regula falsi: of opposite signs), all step counts including non-positive ones", "why_tests_cant": "The bracket is kept by a product of signs of answers that are never compared with each other; only an invariant over the loop shows that no sequence of answers can leave the bracket or reach the division by zero.", "anchors": ["src/util/bisection_zero_finder.cpp: BisectionZeroFinder", "src/util/regula_falsi_zero_finder.cpp: RegulaFalsiZeroFinder"]}
{"id": "C88", "title": "No resolvable part of the surface is lost", "statement": "The converse of C69. (a) Between a solid ball and an empty ball with radius above sqrt(3)/2 grid steps, both centred in the grid, the marching cubes mesh has a vertex, used by a triangle, inside the box spanned by the two centres enlarged by half a step. (b) So for every point z of the surface touched from both sides by such balls (a surface with radius of curvature at least R) the mesh has a used vertex within sqrt(3) (R + step/2) of z. (c) Whoever walks along grid edges from a solid to an empty grid point meets the mesh: one of the edges contains a used vertex. (d) Uniform dual contouring has a whole triangle in the box enlarged by one and a half steps, at least one step from the border of the grid, for every zero finder and QEF options.", "quantifier": "all fields (no continuity needed), grids, positions and radii of the balls, walks of any length; (a)-(c): zero finders that stay on the given segment (both shipped ones do)", "why_tests_cant": "That no piece of surface is dropped is a statement about every point of every surface; tests compare a few meshes.", "anchors": ["src/data/grid.cpp: UniformGrid::fill", "src/algo/marching_cubes.cpp: marchingCubes", "src/algo/uniform_dual_contouring.cpp: dualContouring"]}
{"id": "C89", "title": "The meshes of a world of chunks enclose the right volume together", "statement": "Fill grids of one size and step that lie next to each other on one lattice from the same field and mesh each with marching cubes. The volumes enclosed by the meshes add up to the same total however the same cells are cut into chunks, of whatever size. If the solid does not reach the outer surface of the chunks and the zero finder stays on the edges, the total is at least the volume of the cells all of whose corners are solid and at most that of the cells with a solid corner, although the mesh of a single chunk is open.", "quantifier": "all finite sets of chunks with different coordinates, chunk sizes, fields, zero finders, origins and steps, all ways of cutting the same cells", "why_tests_cant": "The total needs what leaves one chunk through a seam to cancel what enters the next, for every corner pattern and every position of the surface on the shared edges.", "anchors": ["src/algo/marching_cubes.cpp: marchingCubes", "src/data/grid.cpp: UniformGrid::fill", "src/data/grid.cpp: UniformGrid::UniformGrid"]}
{"id": "C90", "title": "Marching cubes meshes do not cut themselves", "statement": "Let a grid be filled from a field by a zero finder that puts the surface strictly between the two ends of every crossed edge; the library's regula falsi zero finder does that for every number of iterations whenever the field is zero at no grid point. Then the marching cubes mesh is an embedded surface: different vertices are different points, no triangle has zero area, and two triangles have at most one corner or one side in common and no further common point, so they neither penetrate nor overlap each other. The same holds across the meshes of different chunks of one world: a common point of two triangles lies in the corner or side that they have in common.", "quantifier": "every grid size, field, solver of this kind, offset on every edge, every pair of triangles and every point of space; for chunks, every pair of chunks", "why_tests_cant": "Overlaps depend on real-valued offsets on up to 12 edges of each of 256 cell configurations and their neighbours; tests sample a few offsets.", "anchors": ["src/algo/marching_cubes.cpp: marchingCubes, triangle table", "src/data/grid.cpp: UniformGrid::fill", "src/util/regula_falsi_zero_finder.cpp: RegulaFalsiZeroFinder"]}
{"id": "C91", "title": "The volume of the mesh converges to the volume of the body", "statement": "Let the body (where the field is not positive) lie strictly inside a grid, or inside the region covered by finitely many chunks of a world, filled with a zero finder that stays on the edges. The volume enclosed by the marching cubes mesh (by all meshes together) differs from the true volume of the body (Lebesgue measure) by at most the volume of the layer of one grid step around the body's surface. So for every bounded body whose surface has no volume and every tolerance there is a grid step below which the total volume of the meshes is right up to the tolerance, whatever the origin, the size of the chunks and the zero finder; and for every step and chunk size such a covering by chunks exists.", "quantifier": "every bounded body given by a field, every grid and every finite set of chunks, every origin, step, chunk size, zero finder of this kind and every tolerance", "why_tests_cant": "A limit statement about all step sizes and arbitrary bodies; tests measure a few bodies at a few resolutions.", "anchors": ["src/algo/marching_cubes.cpp: marchingCubes", "src/data/grid.cpp: UniformGrid::fill"]}
{"id": "C92", "title": "The mesh converges to the surface of the body", "statement": "Let a body be meshed in a world of chunks with marching cubes and a zero finder that stays on the edges. Every point of every triangle differs by at most one grid step in each coordinate from some point of the body's surface (its topological boundary), for every step. Conversely, if the body is bounded, covered by the chunks and has no parts of thickness zero, then for every tolerance there is a step below which every point of the surface has a point of a mesh within the tolerance, for every origin, chunk size and zero finder. So the Hausdorff distance between the meshes and the surface tends to zero with the grid step: nothing of the surface is lost and nothing is added.", "quantifier": "every field, every finite set of chunks, origin, step, chunk size, zero finder of this kind, every point of the meshes and of the surface, every tolerance", "why_tests_cant": "A limit statement about all step sizes, all bodies and all points of the surface; tests compare a few bodies at a few resolutions.", "anchors": ["src/algo/marching_cubes.cpp: marchingCubes", "src/data/grid.cpp: UniformGrid::fill"]}
{"id": "C93", "title": "The meshes of the dual methods converge to the surface of the body", "statement": "Let a body be meshed piece by piece, each piece with uniform dual contouring, with a DC octree without simplification or with an MDC octree at a negative error bound, on grids of one step whose centres are points of one lattice. Every point of every triangle differs by at most one grid step in each coordinate from some point of the body's surface (its topological boundary), for every zero finder and every solver. If the pieces cover the body (each point of the body has a piece that contains all cells around the point) then each point of the surface near to which there are, within a distance rho, cubes of side two steps inside and outside the body has a point of a mesh within rho plus two steps. Hence, if the body is bounded and has no parts of thickness zero, for every tolerance there is a step below which the meshes and the surface are everywhere nearer to each other than the tolerance. Such coverings exist for every bounded body, origin and step.", "quantifier": "every field, origin, step, finite set of pieces, method of each piece, zero finder, solver, history of contour calls, every point of the meshes and of the surface, every tolerance", "why_tests_cant": "A limit statement about all step sizes, all bodies and all points of the surface; tests compare a few bodies at a few resolutions.", "anchors": ["src/algo/uniform_dual_contouring.cpp: dualContouring", "src/data/dc_octree.cpp: DC_Octree::build, DC_Octree::contour", "src/data/mdc_octree.cpp: MDC_Octree::build, MDC_Octree::contour"]}
{"id": "C94", "title": "Terrain meshes follow the heightmap", "statement": "A heightmap with an image describes exactly one terrain H(x, z) (without an image: the horizontal plane through its centre); its slopes are at most the height steps between neighbouring pixels per pixel size. After filling a grid with it, a grid point is solid exactly if it is at or below the terrain; every vertical line of the grid carries at most one crossing, exactly if the terrain meets the line between bottom and top of the grid, and its lower end is the solid one. The marching cubes mesh has, on each vertical line so crossed, a vertex in a triangle exactly at the height of the terrain with the regula falsi finder (whatever its number of steps) and within step/2^steps of it with the bisection finder. Every point of every triangle of the meshes made by marching cubes, dual contouring, the DC octree without simplification and the MDC octree with a negative bound is within sqrt(3)*(1 + A + B) grid steps of the terrain's height above or below, where A and B bound the slopes. Every vertex of the marching cubes mesh has the default solid material and the normalized gradient of the heightmap as normal, which points upwards and is bounded by the slopes.", "quantifier": "every image, height range, centre, pixel size, grid, step, zero finder, solver, every grid line and every point of the mesh", "why_tests_cant": "Statements about all images and all points of the meshes; tests look at a few images and sample points.", "anchors": ["src/field/heightmap.cpp: Heightmap::value, Heightmap::grad", "include/isomesh/field/heightmap.hpp: Heightmap", "src/data/grid.cpp: UniformGrid::fill", "src/algo/marching_cubes.cpp: marchingCubes"]}
{"id": "C95", "title": "Volume of dual contouring meshes", "statement": "Fill a grid from a field and make a mesh with uniform dual contouring, a DC octree without simplification or an MDC octree with a negative error bound (after any earlier contour calls), over a box of the grid on the surface of which no lattice point is solid. The volume enclosed by the mesh, in the world, differs from (number of solid lattice points of the box)*step^3 by at most 8*(number of grid edges of the box between a solid and an empty point)*step^3, wherever the zero finder and the solver put the vertices. If the body described by the field is strictly inside the box, the enclosed volume differs from the Lebesgue volume of the body by at most 49 times the volume of the layer of one grid step around its surface.", "quantifier": "every field, zero finder, grid, step, solver configuration, octree level and method of the three; every vertex placement they lead to", "why_tests_cant": "A bound on the volume for all bodies and all vertex positions, which no finite set of meshes establishes.", "anchors": ["src/algo/uniform_dual_contouring.cpp: dualContouring", "src/data/dc_octree.cpp: DC_Octree::contour", "src/data/mdc_octree.cpp: MDC_Octree::contour", "src/data/grid.cpp: UniformGrid::fill"]}
{"id": "C96", "title": "Axis-aligned boxes are reproduced exactly, with their edges and corners", "statement": "Let the solid be an axis-aligned box whose faces do not pass through grid points, let the gradient on the faces be the outward normal (of any positive length), and let the zero finder find the faces. Then every point of the mesh made by dualContouring, by a DC octree built without simplification or by an MDC octree contoured with a negative error bound (after any earlier contour calls), lies on the surface of the box. If moreover the box is at least one step thick along every axis and strictly inside the grid (the octree), then the mesh is exactly the surface of the box: every point of its faces, its twelve edges and its eight corners is on some triangle. In a field that changes linearly along the crossed edges the regula falsi solver finds the faces exactly, whatever its number of steps. Exact arithmetic, no distortion of stored normals, and singular value thresholds of at most 1.", "quantifier": "all boxes, positions and steps of grids, fields with that solid, zero finders, solver options and all octrees over the grid", "why_tests_cant": "There are infinitely many boxes and positions relative to the grid; sharp features come from the least squares solver whose result tests compare only with tolerances.", "anchors": ["src/algo/uniform_dual_contouring.cpp", "src/data/dc_octree.cpp", "src/qef/qef_solver_3d.cpp", "src/data/grid.cpp"]}
{"id": "C97", "title": "Dual vertices approximate sharp corners with a known error", "statement": "Consider a cell whose stored edges (all of them for dualContouring and for a DC octree built without simplification, those of one sheet of the surface for an MDC octree contoured with a negative error bound) are at most eight, and whose planes (through the stored surface points, orthogonal to the stored normals) are spread: for every vector u, m*|u|^2 is at most the sum of the squared components of u along the normals, where m is at least the pseudo-inverse tolerance and the threshold of the triangularisation. If the point c with the least sum of squared distances to these planes - in particular the common point of all of them, a sharp corner - lies in the cell, then the mesh vertex of the cell satisfies |v-c|^2 <= (B/m^2)*|s-c|^2, where s is the mean of the surface points and B = max(6*tol^2, (2/3)^iters*k^2) with tol the Jacobi tolerance, iters the maximal number of iterations and k the number of planes. Hence the error tends to 0 when the tolerance decreases and the number of iterations grows, whatever the planes. No assumption is made on the convergence of the eigenvalue iteration or on the sizes of intermediate columns. The same bound, with the dimension n in place of 3, holds for any solver given planes that fit into its buffer. Exact arithmetic.", "quantifier": "all grids, cells, plane systems, solver options, octrees and histories of contour calls", "why_tests_cant": "The eigenvalue iteration stops at a tolerance or an iteration limit; tests can compare single cells with expected positions, but not bound the error for every plane system and every option.", "anchors": ["src/qef/qef_solver_3d.cpp", "src/qef/householder.hpp", "src/qef/jacobi.hpp", "src/algo/uniform_dual_contouring.cpp", "src/data/dc_octree.cpp", "src/data/mdc_octree.cpp"]}
{"id": "C98", "title": "Every dual vertex inside its cell is nearly the best point, whatever the planes", "statement": "Take any error function collected by a 3D or 4D QEF solver (planes and merged states since the last reset), any thresholds, and any number of Jacobi iterations. If no compression meets a tiny non-zero column and solve returns a point strictly inside the box, the error of the point exceeds the least possible error by at most K times the squared distance between the mass point and any point with the least error, where K = r/p + p + sqrt(r)(r/p^2 + 1), p is the threshold of small eigenvalues, and r is what the eigenvalue iteration may leave off the diagonal (from the Jacobi tolerance, the iteration count and the sum of squared normal lengths). No assumption on the directions of the planes or on the accuracy of the decomposition. The error always has a least value. Hence every vertex of uniform dual contouring, of the unsimplified dual contouring octree and of the MDC octree with a negative bound is on the boundary of its cell or nearly optimal for the planes of its edges. K tends to p as the tolerance goes to 0 and the iterations grow; every grid satisfies the condition on tiny columns if the threshold is small enough.", "quantifier": "all histories of solver calls, all planes, thresholds, iteration counts and boxes; all filled grids, all cells and vertices", "why_tests_cant": "a bound on the excess error over all plane systems, including degenerate ones, is a numerical-analysis statement; tests only see particular systems with a converged decomposition", "anchors": ["src/qef/qef_solver_3d.cpp", "src/qef/qef_solver_4d.cpp", "src/qef/householder.hpp", "src/qef/jacobi.hpp", "src/algo/uniform_dual_contouring.cpp", "src/data/dc_octree.cpp", "src/data/mdc_octree.cpp"]}
{"id": "C99", "title": "Loading a PLY file gives its points, area-weighted normals and non-degenerate faces", "statement": "ply2mesh succeeds on every file whose faces refer to existing points. The mesh has the points of the file in the same order, moved by one common translation and scale; the normal of a point is the normalised sum of the area vectors of the faces around it (after the change of winding asked for by the flag); the triangles are exactly the faces with three different corners, in the same order and with this winding.", "quantifier": "every PLY file with valid indices, both windings, every normalise function", "why_tests_cant": "the accumulation over shared points and the skipping of degenerate faces must be right for all face lists", "anchors": ["src/util/ply_mesh.cpp", "src/private/ply_data.cpp"]}
{"id": "C100", "title": "Heightmap sampling is free of integer overflow near the image", "statement": "With any image of less than 2^31 pixels, Heightmap::value (and grad) computes all its int values without overflow at every position within 10^9 pixels of the centre, and the result is the one of the ideal heightmap; the exact set of safe positions is that of pixel coordinates in [-2^31, 2^31 - 1). At every other position the conversion to int or the addition of one is undefined behaviour. Without an image every position is safe.", "quantifier": "every image, position, centre and pixel size", "why_tests_cant": "real-valued positions without bound; undefined behaviour need not show", "anchors": ["src/field/heightmap.cpp", "src/private/stbi_data.cpp"]}
{"id": "C101", "title": "Grid predicates answer right for every 32-bit coordinate but the least one", "statement": "For all 32-bit coordinates other than -2^31 the predicates isVertexInGrid, isEdgeInGrid, isFaceInGrid (and the border predicates for things inside) overflow nowhere and say what the geometry says. For -2^31 the absolute value overflows; where it wraps around, isVertexInGrid counts the coordinate as inside, the assertion of at() passes and the access is outside of the array.", "quantifier": "every grid and every triple of 32-bit coordinates", "why_tests_cant": "2^96 points; the failing ones are never tried by tests", "anchors": ["src/data/grid.cpp: isVertexInGrid, isEdgeInGrid, isFaceInGrid, isVertexOnBorder, isEdgeOnBorder, isFaceOnBorder, pointToIndex"]}
{"id": "C102", "title": "The simplification error bound is a bound on distances to the surface's tangent planes", "statement": "A mesh contoured from a DC_Octree built with simplification and error bound epsilon: every vertex of the mesh belongs to one crossed leaf of the tree, and if this leaf is bigger than a grid cell (so cells were merged), then the sum of the squared distances from the vertex to the tangent planes of all the surface crossings of all grid cells in the leaf's cube - an edge counted once for each cell it belongs to - is at most epsilon / scale^2 in grid units. In particular the vertex is within sqrt(epsilon) of each of these planes. Nothing is lost by merging in several steps: the error tested at each level is the exact sum over all original crossings below, not only over the last merge.", "quantifier": "all filled grids, octree levels, error bounds and solver options, in exact arithmetic, with a threshold of the solver small enough that no compression drops a column (such thresholds exist for every grid)", "why_tests_cant": "the error of a leaf is carried through up to ten levels of compressed error systems (QR decompositions merged eight at a time); that nothing is lost on the way holds or fails for all histories, and a test would need the exact sum over all crossings for arbitrary surfaces", "anchors": ["src/data/dc_octree.cpp: build, buildNode, makeVertices", "src/qef/qef_solver_3d.cpp: reset, addPlane, merge, state, solve, eval"]}
{"id": "C103", "title": "The manifold DC error bound is a bound on distances to the surface's tangent planes", "statement": "Build an MDC_Octree from a filled grid and contour it with any error bounds, any number of times. In the mesh returned for the bound epsilon every vertex stands for a set of surface crossings (as in C59), and if these do not all belong to one grid cell, the sum of the squared distances from the vertex to the tangent planes of exactly these crossings is at most epsilon / scale^2 in grid units; in particular the vertex is within sqrt(epsilon) of the tangent plane of every crossing it stands for, however many levels of vertices were merged into it.", "quantifier": "all filled grids, octrees up to level 9, sequences of contour calls, error bounds and solver options, in exact arithmetic, with a threshold of the solver small enough that no compression drops a column (such thresholds exist for every grid)", "why_tests_cant": "vertices are clustered along the connectivity of the surface, each cluster's error system being merged from compressed systems of clusters below; that the tested error is exactly the one of the crossings the vertex ends up standing for must hold for every surface and every level", "anchors": ["src/data/mdc_octree.cpp: contour, clusterCell, solve vertices", "src/qef/qef_solver_3d.cpp: reset, addPlane, merge, state, solve, eval"]}
{"id": "C104", "title": "The triangles of simplified meshes stay near tangent planes of the surface", "statement": "Every triangle of a mesh contoured from a built DC_Octree (any simplification bound) or from an MDC_Octree (any bound, after any earlier contour calls) belongs to one surface crossing on a grid edge inside the octree's cube: each corner of the triangle lies in a cube that has a cell around the crossed edge, and a corner in a cube larger than a cell is within sqrt(epsilon)/scale of the tangent plane at that crossing. If all three corners of a DC triangle lie in merged cubes, every point of the triangle is within this distance of the tangent plane.", "quantifier": "all filled grids, octrees, error bounds, sequences of contour calls and solver options, in exact arithmetic, with a threshold of the solver small enough that no compression drops a column (such thresholds exist for every grid)", "why_tests_cant": "triangles connect leaves of different sizes that may be merged over many levels; that the corners of one triangle share a crossing which the error bound of each of them covers depends on the whole tree", "anchors": ["src/data/dc_octree.cpp: edgeProc, buildNode", "src/data/mdc_octree.cpp: contour", "src/qef/qef_solver_3d.cpp: addPlane, merge, solve, eval"]}
{"id": "C105", "title": "Vertex normals of dual meshes stay within the directions of the surface normals", "statement": "In meshes made by dualContouring, by a DC_Octree (any simplification bound, simplified or not) or by an MDC_Octree (any bound, after any earlier contour calls): if the stored surface normals of all crossings a vertex stands for (those of its cell; of its merged leaf's cube; of its sheet cluster) have components of at least gamma > 0 along a direction u, the normal of the vertex is a unit vector whose component along u is at least gamma. With gamma = cos(theta) and a unit vector u: if all surface normals are within an angle theta < 90 degrees of u, so is the vertex normal, however many levels it was merged over; it never has length zero and never points backwards. For a DMC_Octree: if all gradients of the field in the cubes of the two leaves of a vertex's dual edge are non-zero and within the direction, its normal is a unit vector within it.", "quantifier": "all filled grids, cells, octrees, merge histories, error bounds, sequences of contour calls, directions and angles, in exact arithmetic, normalize dividing by the length", "why_tests_cant": "normals of merged vertices are normalised sums of normals of vertices that were themselves merged, over any number of levels; that no combination of weights leaves the cone of the surface normals or cancels to zero needs an induction over the tree", "anchors": ["src/algo/uniform_dual_contouring.cpp: dualContouring", "src/data/dc_octree.cpp: buildLeaf, buildNode", "src/data/mdc_octree.cpp: contour", "src/data/dmc_octree.cpp: buildNode, contour"]}
