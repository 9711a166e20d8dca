{"id": "C01", "title": "BVH spatial query finds exactly the matching values", "statement": "After building a BoundingVolumeHierarchy over n values, a spatial query calls the callback exactly once for every stored value whose geometry satisfies the predicate and never for any other value, provided the predicate accepts a bounding volume whenever it accepts something inside it.", "quantifier": "every number of values (0, 1, many), every assignment of space-filling-curve codes in non-decreasing order with an unused top bit (duplicates allowed), every geometry/bounding volume, every monotone predicate, every thread schedule of the construction", "why_tests_cant": "a test covers a handful of trees and queries; a rope or pruning error only shows for particular code patterns, sizes and predicates", "anchors": ["src/spatial/ArborX_LinearBVH.hpp:BoundingVolumeHierarchy::query", "src/spatial/detail/ArborX_TreeTraversal.hpp:TreeTraversal<SpatialPredicateTag>", "src/spatial/detail/ArborX_TreeConstruction.hpp:GenerateHierarchy"]}
{"id": "C02", "title": "Parallel hierarchy construction is schedule independent and always finishes", "statement": "Building the hierarchy with one thread per value terminates under every interleaving of the threads, never reads a node another thread has not finished, and always yields the same well-formed binary tree: leaves in curve order, each internal node's bounding volume the union of its leaves, the right child of a node reachable as the rope of its left child.", "quantifier": "every number n>=2 of values, every code array without adjacent equal split keys, every interleaving of the construction threads at atomic-operation granularity", "why_tests_cant": "the number of interleavings is exponential; a test run observes a few of them", "anchors": ["src/spatial/detail/ArborX_TreeConstruction.hpp:GenerateHierarchy::operator()", "src/spatial/detail/ArborX_TreeConstruction.hpp:setRope", "src/spatial/detail/ArborX_TreeConstruction.hpp:delta"]}
{"id": "C03", "title": "Construction terminates and is correct for every supported code width", "statement": "The split keys computed from sorted codes (with duplicates) are such that the construction yields a proper tree for every user selectable space-filling curve.", "quantifier": "every sorted array of codes of every supported curve (Morton32 and Morton64 in every dimension)", "why_tests_cant": "the failure needs specific code bit patterns (top bit of a 32-bit code) that ordinary data rarely produces", "anchors": ["src/spatial/detail/ArborX_TreeConstruction.hpp:delta", "src/spatial/detail/ArborX_MortonCode.hpp:morton32", "src/spatial/detail/ArborX_SpaceFillingCurves.hpp:Morton32"]}
{"id": "C04", "title": "Early exit stops a spatial query", "statement": "If the callback of a spatial query requests early termination on some value, no further callback invocation happens for that query, and the values visited form a prefix of the sequence visited by the same query without early exit.", "quantifier": "every tree, every predicate and every callback policy (any function of the history deciding when to stop)", "why_tests_cant": "the callback can stop at any point of any traversal", "anchors": ["src/spatial/detail/ArborX_TreeTraversal.hpp:TreeTraversal<SpatialPredicateTag>::operator()", "src/spatial/detail/ArborX_Callbacks.hpp:invoke_callback_and_check_early_exit"]}
{"id": "C05", "title": "Nearest query returns the k nearest values in order", "statement": "A nearest query for k >= 0 neighbours calls the callback on exactly min(k, number of values at finite distance) distinct values, in non-decreasing distance, and no value that was left out is strictly closer than any value returned. (The only value of a tree with a single value is returned even at infinite distance; the traversal's stack must suffice, which C06 and C07 establish.)", "quantifier": "every tree, every k, every distance function such that a bounding volume is never farther than the values inside it (ties included)", "why_tests_cant": "pruning and heap errors depend on tree shape, tie patterns and k", "anchors": ["src/spatial/detail/ArborX_TreeTraversal.hpp:TreeTraversal<NearestPredicateTag>::operator()", "src/misc/ArborX_PriorityQueue.hpp", "src/misc/ArborX_Heap.hpp"]}
{"id": "C06", "title": "Nearest traversal never overruns its fixed-size stack", "statement": "The nearest query never writes outside its 64-entry stack.", "quantifier": "every tree the library can build and every query", "why_tests_cant": "needs adversarial point sets producing trees deeper than the stack", "anchors": ["src/spatial/detail/ArborX_TreeTraversal.hpp:218", "src/cluster/detail/ArborX_BoruvkaHelpers.hpp:195"]}
{"id": "C07", "title": "Ordered spatial query visits hits in distance order", "statement": "An ordered spatial query calls the callback exactly on the values at finite distance from the query geometry, in non-decreasing distance, until the callback exits early, and stays within its fixed-size buffer.", "quantifier": "every tree, every query, every callback policy", "why_tests_cant": "misses with several values, and more than 64 pending nodes, are not covered by the unit tests", "anchors": ["src/spatial/detail/ArborX_TreeTraversal.hpp:TreeTraversal<OrderedSpatialPredicateTag>::operator()"]}
{"id": "C08", "title": "Half traversal reports each matching pair once", "statement": "With a symmetric predicate, the half traversal invokes the callback exactly once for each unordered pair of distinct values that match each other and never for a value with itself.", "quantifier": "every number of values, every tree shape, every symmetric monotone predicate family", "why_tests_cant": "missing or doubled pairs depend on the tree shape", "anchors": ["src/spatial/detail/ArborX_HalfTraversal.hpp:HalfTraversal::operator()"]}
{"id": "C09", "title": "CRS query output is complete for every buffer policy", "statement": "A query storing its output in compressed-row form yields offsets starting at 0, non-decreasing, ending at the total, with row i holding exactly the outputs the callback emitted for query i in emission order; the result does not depend on the buffer size, on whether a second pass was needed, on predicate sorting, or on the order in which queries are executed. With a hard buffer limit the call throws exactly when some query exceeds it.", "quantifier": "every number of queries, every list of per-query outputs, every buffer size and policy, every permutation, every execution order of the insertions; for nearest queries, trees for which the 64-entry stack of the traversal is large enough (C06)", "why_tests_cant": "tests use a few buffer sizes and one execution order", "anchors": ["src/spatial/detail/ArborX_CrsGraphWrapperImpl.hpp:queryImpl", "src/spatial/detail/ArborX_CrsGraphWrapperImpl.hpp:InsertGenerator", "src/spatial/detail/ArborX_CrsGraphWrapperImpl.hpp:allocateAndInitializeStorage"]}
{"id": "C10", "title": "Half and full neighbour lists", "statement": "findHalfNeighborList stores every pair of distinct points within the radius in exactly one of the two rows; findFullNeighborList stores it in both; no row holds its own point; expandHalfToFull turns the half list into the full list.", "quantifier": "every point set and radius, every execution order of the parallel insertions", "why_tests_cant": "insertion order is schedule dependent; the property ranges over all orders", "anchors": ["src/spatial/detail/ArborX_NeighborList.hpp", "src/spatial/detail/ArborX_ExpandHalfToFull.hpp:expandHalfToFull"]}
{"id": "C11", "title": "BruteForce spatial query is exact", "statement": "A BruteForce spatial query calls the callback exactly once per matching (query, value) pair and never otherwise, whatever the tile sizes.", "quantifier": "every number of values and queries, every tile size > 0, every predicate", "why_tests_cant": "boundary tiles depend on divisibility; rounding in the tile count appears only for sizes above 2^24", "anchors": ["src/spatial/detail/ArborX_BruteForceImpl.hpp:BruteForceImpl::query"]}
{"id": "C12", "title": "BruteForce nearest query returns the k nearest values", "statement": "A BruteForce nearest query returns min(k,n) values, sorted by distance, with no omitted value strictly closer than a returned one.", "quantifier": "every number of values, every k, every distance assignment", "why_tests_cant": "the tests use inputs where the error does not show", "anchors": ["src/spatial/detail/ArborX_BruteForceImpl.hpp:153"]}
{"id": "C13", "title": "Priority queue and heap sort", "statement": "Pushing and popping on the library's priority queue always yields an element of highest priority and never loses or duplicates elements; popPush equals pop then push; sorting a heap yields a sorted permutation.", "quantifier": "every sequence of operations, every element type and every strict weak order", "why_tests_cant": "the state space of heaps is unbounded", "anchors": ["src/misc/ArborX_Heap.hpp", "src/misc/ArborX_PriorityQueue.hpp"]}
{"id": "C14", "title": "nth_element selects", "statement": "nth_element permutes the range so that position n holds the element that sorting would put there, with nothing larger before it and nothing smaller after it, and terminates.", "quantifier": "every array, every n within it, every linear order on elements (duplicates included)", "why_tests_cant": "quickselect partitions have input dependent edge cases", "anchors": ["src/kokkos_ext/ArborX_KokkosExtKernelStdAlgorithms.hpp:nth_element"]}
{"id": "C15", "title": "Binary searches", "statement": "On a sorted range lower_bound returns the first position whose element is not less than the value, upper_bound the first position whose element is greater.", "quantifier": "every sorted array and every value", "why_tests_cant": "off-by-one errors depend on length and position", "anchors": ["src/kokkos_ext/ArborX_KokkosExtKernelStdAlgorithms.hpp:lower_bound", "src/kokkos_ext/ArborX_KokkosExtKernelStdAlgorithms.hpp:upper_bound"]}
{"id": "C16", "title": "Bit spreading and Morton interleaving", "statement": "expandBitsBy<k> moves bit i of the (masked) input to bit (k+1)*i of the output and sets no other bit; hence a Morton code is the exact bit interleaving of its quantised coordinates, different cells get different codes, and the code is monotone in each coordinate.", "quantifier": "every 32-bit/64-bit input and every k in 0..9", "why_tests_cant": "2^64 inputs per function; a wrong magic constant can affect a single bit", "anchors": ["src/spatial/detail/ArborX_MortonCode.hpp:expandBitsBy", "src/spatial/detail/ArborX_MortonCode.hpp:morton32", "src/spatial/detail/ArborX_MortonCode.hpp:morton64"]}
{"id": "C17", "title": "Permutation utilities round-trip", "statement": "applyPermutation and applyInversePermutation are inverse to each other, lose no element, and sortObjects returns the permutation that sorts.", "quantifier": "every array and every permutation", "why_tests_cant": "all permutations of all lengths", "anchors": ["src/misc/ArborX_SortUtils.hpp"]}
{"id": "C18", "title": "Concurrent union-find computes connected components", "statement": "Merging any set of pairs concurrently, in any interleaving of the threads' reads, compare-and-swaps and path-halving writes, terminates in a labelling in which two elements have the same representative exactly when they are connected by the merged pairs.", "quantifier": "every number of elements, every multiset of pairs, every interleaving", "why_tests_cant": "races in lock-free union-find show only under particular interleavings", "anchors": ["src/cluster/detail/ArborX_UnionFind.hpp:UnionFind::representative", "src/cluster/detail/ArborX_UnionFind.hpp:UnionFind::merge"]}
{"id": "C19", "title": "DBSCAN labels are a DBSCAN clustering", "statement": "With minPts >= 2, two core points get the same label iff they are connected by a chain of core points at consecutive distance <= eps; a non-core point within eps of some core point gets the label of such a core point; every other point gets -1.", "quantifier": "every point set, eps, minPts, and every schedule of the main kernel", "why_tests_cant": "the outcome depends on the union-find races and on the special cases minPts=2 / border points", "anchors": ["src/cluster/ArborX_DBSCAN.hpp:dbscan", "src/cluster/detail/ArborX_FDBSCAN.hpp:FDBSCANCallback"]}
{"id": "C20", "title": "DBSCAN* treats border points as noise", "statement": "With the DBSCAN_Star variant the labels of core points are as in DBSCAN and every non-core point is labelled -1.", "quantifier": "every point set, eps, minPts, schedule", "why_tests_cant": "as for DBSCAN", "anchors": ["src/cluster/ArborX_DBSCAN.hpp:DBSCAN_Star"]}
{"id": "C21", "title": "Dense-box grid: two points in one cell are within eps and cells are distinguishable", "statement": "The Cartesian grid used by the dense-box DBSCAN assigns the same cell index only to points in the same grid cell, and the box of a cell contains the points assigned to it; hence points sharing a cell are within eps of each other and the dense-box algorithm agrees with the plain one.", "quantifier": "every point set, dimension and eps", "why_tests_cant": "the failure needs points exactly on the upper boundary of the scene box with extent divisible by the cell size", "anchors": ["src/cluster/detail/ArborX_CartesianGrid.hpp:cellIndex", "src/cluster/detail/ArborX_CartesianGrid.hpp:cellBox", "src/cluster/detail/ArborX_FDBSCANDenseBox.hpp"]}
{"id": "C22", "title": "Boruvka computes a minimum spanning tree", "statement": "The Euclidean (or mutual-reachability) minimum spanning tree routine returns n-1 edges that connect all points with minimum total weight among all connecting edge sets.", "quantifier": "every number of points n>=2 and every symmetric weight function, ties included", "why_tests_cant": "cycles through ties appear only for special weights", "anchors": ["src/cluster/ArborX_MinimumSpanningTree.hpp:doBoruvka", "src/cluster/detail/ArborX_BoruvkaHelpers.hpp:UpdateComponentsAndEdges"]}
{"id": "C23", "title": "Dendrogram is the single-linkage hierarchy", "statement": "Given the edges of a spanning tree, the dendrogram's parent of edge i is the next larger edge merging its cluster, the parent of a vertex is its smallest incident edge's cluster, the last edge is the root, and every non-root node has exactly one parent of larger or equal height.", "quantifier": "every spanning tree with at least one edge and every weight assignment", "why_tests_cant": "depends on the union-find history", "anchors": ["src/cluster/detail/ArborX_DendrogramHelpers.hpp:dendrogramUnionFindHost", "src/cluster/ArborX_Dendrogram.hpp"]}
{"id": "C24", "title": "Directed edge encoding round-trips and orders by weight then endpoints", "statement": "A directed edge built from (source, target, weight) returns the same source and target, compares first by weight and then independently of its direction by the unordered pair, and equal keys mean the same undirected edge.", "quantifier": "every pair of 31-bit indices and every weight", "why_tests_cant": "2^62 index pairs", "anchors": ["src/cluster/detail/ArborX_BoruvkaHelpers.hpp:DirectedEdge"]}
{"id": "C25", "title": "Weighted edge comparison is a strict weak order on undirected edges", "statement": "operator< on weighted edges is irreflexive, transitive, orders by weight first and treats (i,j) and (j,i) as the same edge.", "quantifier": "all triples of edges", "why_tests_cant": "all triples", "anchors": ["src/cluster/detail/ArborX_WeightedEdge.hpp:operator<"]}
{"id": "C26", "title": "Tree labels reduction under any schedule", "statement": "Reducing leaf labels bottom-up gives each internal node the common label of its leaves if they agree and the invalid marker otherwise, for every interleaving of the threads.", "quantifier": "every tree, every leaf labelling, every interleaving", "why_tests_cant": "exponentially many interleavings", "anchors": ["src/spatial/detail/ArborX_TreeNodeLabeling.hpp:reduceLabels"]}
{"id": "C27", "title": "Distributor delivers every item once to its destination", "statement": "Data exchanged with a Distributor created from destination ranks arrives exactly once at the destination rank, ordered by source rank and, within one source, by original position; the number of imports reported equals the number received.", "quantifier": "every number of ranks and every destination list on every rank", "why_tests_cant": "tests run with a few ranks", "anchors": ["src/distributed/detail/ArborX_Distributor.hpp:Distributor"]}
{"id": "C28", "title": "Distributed spatial query equals the global query", "statement": "A spatial query on a DistributedTree returns for each query exactly the union over all ranks of the values satisfying it, each once, grouped by query.", "quantifier": "every number of ranks, every distribution of values (empty ranks included), every set of queries", "why_tests_cant": "tests use a few ranks and layouts", "anchors": ["src/distributed/detail/ArborX_DistributedTreeSpatial.hpp", "src/distributed/detail/ArborX_DistributedTreeUtils.hpp"]}
{"id": "C29", "title": "Distributed nearest query equals the global query", "statement": "A nearest query on a DistributedTree returns min(k, total) values, sorted by distance, with no omitted value on any rank strictly closer than a returned one.", "quantifier": "every number of ranks, every distribution, every k", "why_tests_cant": "tests use a few ranks and layouts", "anchors": ["src/distributed/detail/ArborX_DistributedTreeNearest.hpp", "src/distributed/detail/ArborX_DistributedTreeUtils.hpp:filterResults"]}
{"id": "C30", "title": "Distributed DBSCAN merges connected local clusters", "statement": "After the merge phase of the distributed DBSCAN, two labels end up equal exactly when they are connected through core points that carry several labels.", "quantifier": "every number of ranks and every set of merge pairs", "why_tests_cant": "long chains of local clusters across ranks are needed to expose lost merges", "anchors": ["src/cluster/detail/ArborX_DistributedDBSCANHelpers.hpp:sortAndFilterMergePairs", "src/cluster/detail/ArborX_DistributedDBSCANHelpers.hpp:relabel"]}
{"id": "C31", "title": "Bounding box reduction is the least enclosing box in any order", "statement": "The scene bounding box (and any box grown with expand) contains every geometry it was expanded with, is the smallest such box, and does not depend on the order or grouping of the reduction.", "quantifier": "every number of geometries, every dimension, every reduction tree, any totally ordered coordinates", "why_tests_cant": "all orders and groupings", "anchors": ["src/geometry/algorithms/ArborX_Expand.hpp", "src/geometry/algorithms/ArborX_Reducer.hpp", "src/spatial/detail/ArborX_TreeConstruction.hpp:calculateBoundingBoxOfTheScene"]}
{"id": "C32", "title": "Intersection tests mean a common point", "statement": "intersects(point|box|sphere, box|sphere) is true exactly when the two sets have a common point.", "quantifier": "every dimension and every geometry with valid extents", "why_tests_cant": "continuous input space", "anchors": ["src/geometry/algorithms/ArborX_Intersects.hpp"]}
{"id": "C33", "title": "Distances are minimal distances and lower bounds", "statement": "distance(point,box) is attained at a point of the box and no point of the box is closer; distance(box,box) and distance(sphere,box) likewise; a bounding volume is never farther from a query than anything it contains.", "quantifier": "every dimension and geometry", "why_tests_cant": "continuous input space", "anchors": ["src/geometry/algorithms/ArborX_Distance.hpp", "src/geometry/algorithms/ArborX_ClosestPoint.hpp"]}
{"id": "C34", "title": "k-DOP bounding volumes contain what they were expanded with", "statement": "A k-DOP expanded with points and boxes contains them, intersects() never rejects a geometry that shares a point with it, and converting to a box encloses it.", "quantifier": "every k-DOP family, point and box", "why_tests_cant": "continuous input space", "anchors": ["src/geometry/ArborX_KDOP.hpp", "src/geometry/algorithms/ArborX_Expand.hpp", "src/geometry/algorithms/ArborX_Intersects.hpp"]}
{"id": "C35", "title": "Box-triangle intersection test", "statement": "intersects(box, triangle) is true exactly if the triangle has a point in the box.", "quantifier": "every box and triangle", "why_tests_cant": "needs a triangle/box pair separated only on one specific axis", "anchors": ["src/geometry/algorithms/ArborX_Intersects.hpp:166"]}
{"id": "C36", "title": "Ray-box intersection", "statement": "intersects(ray, box) is true exactly when some point origin + t*direction with t>=0 lies in the box, and the ray-box distance is the smallest such t.", "quantifier": "every ray (including axis-aligned directions and signed zeros) and every valid box", "why_tests_cant": "signed zeros and boundary origins are rarely tested", "anchors": ["src/geometry/ArborX_Ray.hpp:intersection", "src/geometry/ArborX_Ray.hpp:distance"]}
{"id": "C37", "title": "Planar segment intersection", "statement": "intersects(segment, segment) in 2D is true exactly when the two segments share a point, degenerate segments included; intersects(segment, box) likewise.", "quantifier": "every pair of segments", "why_tests_cant": "collinear and degenerate cases", "anchors": ["src/geometry/algorithms/ArborX_Intersects.hpp:397"]}
{"id": "C38", "title": "Closest point on a triangle and on a segment", "statement": "closestPoint(p, triangle) and closestPoint(p, segment) return a point of the shape at minimal distance from p.", "quantifier": "every point and shape", "why_tests_cant": "seven Voronoi zones, continuous input space", "anchors": ["src/geometry/algorithms/ArborX_ClosestPoint.hpp"]}
{"id": "C39", "title": "Barycentric coordinates and point containment", "statement": "Barycentric coordinates of a point with respect to a non-degenerate triangle (2D) or tetrahedron (3D) sum to one and reproduce the point; the point-in-triangle and point-in-tetrahedron tests are true exactly for convex combinations of the vertices.", "quantifier": "every non-degenerate simplex and point", "why_tests_cant": "continuous input space", "anchors": ["src/geometry/algorithms/ArborX_BarycentricCoordinates.hpp", "src/geometry/algorithms/ArborX_Intersects.hpp"]}
{"id": "C40", "title": "Ellipsoid-box intersection test", "statement": "intersects(ellipsoid, box) is true whenever a point of the box lies in the ellipsoid.", "quantifier": "every ellipsoid and box in 2D and 3D", "why_tests_cant": "needs a strongly anisotropic ellipsoid near a box face", "anchors": ["src/geometry/algorithms/ArborX_Intersects.hpp:574"]}
{"id": "C41", "title": "Moving least squares reproduces polynomials", "statement": "When the moment matrix is invertible, interpolation with the computed coefficients is exact for every polynomial of the chosen degree, and the basis has binomial(dim+degree, degree) monomials.", "quantifier": "every set of source points, weights and polynomial", "why_tests_cant": "continuous input space", "anchors": ["src/interpolation/detail/ArborX_InterpDetailsMovingLeastSquaresCoefficients.hpp", "src/interpolation/detail/ArborX_InterpDetailsPolynomialBasis.hpp"]}
{"id": "C42", "title": "Offsets of an ordered view", "statement": "computeOffsetsInOrderedView returns the start positions of maximal runs of equal keys followed by the length, so consecutive offsets delimit exactly the groups.", "quantifier": "every array whose equal keys are contiguous", "why_tests_cant": "all run patterns", "anchors": ["src/misc/ArborX_Utils.hpp:computeOffsetsInOrderedView"]}
{"id": "C43", "title": "Dense/sparse reordering is a partition", "statement": "Reordering by dense and sparse cells yields a permutation that lists all points of dense cells first, cell by cell, then all others, for every order of the atomic counters.", "quantifier": "every cell array, threshold and schedule", "why_tests_cant": "atomic counter order is schedule dependent", "anchors": ["src/cluster/detail/ArborX_FDBSCANDenseBox.hpp:reorderDenseAndSparseCells"]}
{"id": "C44", "title": "Rank grid factorisation", "statement": "closestFactors<DIM>(n) terminates and returns DIM positive factors in decreasing order whose product is n.", "quantifier": "every n>=1 and DIM>=1", "why_tests_cant": "all n", "anchors": ["src/distributed/detail/ArborX_DistributedUtils.hpp:closestFactors"]}
{"id": "C45", "title": "PerThread queries and degenerate trees", "statement": "Queries on trees with zero or one value behave like queries on larger trees (no output, or the single match), for the batched interface; the per-thread interface requires at least two values.", "quantifier": "every predicate and callback", "why_tests_cant": "size-dependent code paths", "anchors": ["src/spatial/ArborX_LinearBVH.hpp:112", "src/spatial/detail/ArborX_TreeTraversal.hpp:OneLeafTree"]}
{"id": "C46", "title": "HDBSCAN mutual reachability and core distances", "statement": "The mutual reachability distance is symmetric, at least the Euclidean distance and at least both core distances, and the core distance of a point is the distance to its minPts-th nearest point (itself included).", "quantifier": "every point set and minPts <= n; for nearest queries, trees for which the 64-entry stack of the traversal is large enough (C06)", "why_tests_cant": "all inputs", "anchors": ["src/cluster/detail/ArborX_MutualReachabilityDistance.hpp"]}
{"id": "C47", "title": "Overlap of a ray and a sphere", "statement": "overlapDistance(ray, sphere) returns the smallest t >= 0 at which the ray is in the sphere and the length of the part of the ray in the sphere; zero and infinity if the ray misses the sphere.", "quantifier": "every ray of unit direction and every sphere, tangent rays and origins inside the sphere included", "why_tests_cant": "continuous input space, case distinction of the stable quadratic formula", "anchors": ["src/geometry/ArborX_Ray.hpp:solveQuadratic", "src/geometry/ArborX_Ray.hpp:overlapDistance"]}
{"id": "C48", "title": "Distributed DBSCAN clusters the points of all ranks", "statement": "The distributed dbscan returns, for the points of every rank, labels that together are a DBSCAN (or DBSCAN*) clustering of the union of the points of all ranks: core points have equal labels exactly if a chain of core points joins them, border points have the label of a core point near them, all other points are noise.", "quantifier": "every number of ranks, every distribution of the points over the ranks, every eps and core_min_size, every execution", "why_tests_cant": "a lost merge needs a cluster that passes through several ranks in an unusual order; tests use few ranks and compact layouts", "anchors": ["src/cluster/ArborX_DistributedDBSCAN.hpp:dbscan", "src/cluster/detail/ArborX_DistributedDBSCANHelpers.hpp"]}
{"id": "C49", "title": "The labels found for ghost points reach their owners", "statement": "In the distributed dbscan, every label other than noise that a rank finds for a point of another rank is sent to that rank, with the right point, and nothing else is sent.", "quantifier": "every number of ghost points, every pattern of noise among them, every number of threads and every interleaving", "why_tests_cant": "the ghost arrays are compacted in place by a parallel scan; the outcome depends on the order in which threads run", "anchors": ["src/cluster/ArborX_DistributedDBSCAN.hpp:dbscan"]}
{"id": "C50", "title": "Symmetric singular value decomposition terminates and is correct up to the tolerance", "statement": "For every symmetric matrix and every positive tolerance the Jacobi iteration ends; the returned unit matrix is orthogonal, and the input equals U (D + E) U^T where D is the returned diagonal and E is symmetric with zero diagonal and entries of absolute value at most the tolerance.", "quantifier": "every size, every symmetric real matrix, every positive tolerance", "why_tests_cant": "continuous input space and an iteration without a bound on its number of steps", "anchors": ["src/interpolation/detail/ArborX_InterpDetailsSymmetricPseudoInverseSVD.hpp: symmetricSVDKernel, argmaxUpperTriangle"]}
{"id": "C51", "title": "Moving least squares with too few or degenerate sources", "statement": "When the moment matrix is singular up to the tolerance, monomials are taken out of the basis until the remaining ones are independent on the sources; the constant is never taken out, and the interpolation is exact, up to the tolerance, for every combination of the remaining monomials.", "quantifier": "every set of source points, weights and polynomial in the remaining monomials", "why_tests_cant": "continuous input space, rank decisions", "anchors": ["src/interpolation/detail/ArborX_InterpDetailsMovingLeastSquaresCoefficients.hpp: rowEchelonForm, operator()"]}
{"id": "C52", "title": "Spatial queries on a tree of geometries find exactly the geometries they share a point with", "statement": "Build a BoundingVolumeHierarchy with the default space-filling curve from any list of points, boxes, spheres, segments, triangles or tetrahedra. The query intersects(Q), for any geometry Q the library can test against boxes and the stored values, calls the callback exactly once for each stored geometry that has a point in common with Q and for no other, however the construction was scheduled.", "quantifier": "every dimension from 2 to 10, number and kind of values, coordinates, query geometry, construction schedule", "why_tests_cant": "unbounded sets of inputs, continuous coordinates, schedules", "anchors": ["src/spatial/ArborX_LinearBVH.hpp: BoundingVolumeHierarchy, query", "src/geometry/algorithms/ArborX_Intersects.hpp: intersects", "src/geometry/algorithms/ArborX_Expand.hpp: expand", "src/spatial/detail/ArborX_SpaceFillingCurves.hpp: Morton64"]}
{"id": "C53", "title": "Nearest queries on a tree of geometries return the geometries of smallest Euclidean distance", "statement": "On the same trees, nearest(Q, k) calls the callback on min(k, n) different stored geometries in the order of their Euclidean distance to Q (the least distance of two points), and no geometry left out is nearer than one that is returned, provided that the 64-entry stack is large enough for the tree.", "quantifier": "every dimension from 2 to 10, number and kind of values, coordinates, query geometry, k, construction schedule; triangles and tetrahedra that are not degenerate", "why_tests_cant": "unbounded sets of inputs, continuous coordinates, schedules", "anchors": ["src/spatial/ArborX_LinearBVH.hpp: BoundingVolumeHierarchy, query", "src/geometry/algorithms/ArborX_Distance.hpp: distance", "src/spatial/detail/ArborX_TreeTraversal.hpp: TreeTraversal"]}
{"id": "C54", "title": "MovingLeastSquares finds the nearest sources and reproduces polynomials at all targets", "statement": "The constructor stores for each target its num_neighbors nearest source points, under every interleaving of the search, without out-of-bounds writes; if these determine polynomials of the chosen degree, interpolate applied to the values of such a polynomial at the sources yields its values at the targets, up to an error that vanishes with the tolerance.", "quantifier": "every set of sources and targets, number of neighbours, radial function, degree, polynomial, construction and query schedule; for nearest queries, trees for which the 64-entry stack of the traversal is large enough (C06)", "why_tests_cant": "continuous inputs and schedules of concurrent counters", "anchors": ["src/interpolation/ArborX_InterpMovingLeastSquares.hpp: MovingLeastSquares, MLSSearchNeighborsCallback, interpolate"]}
{"id": "C55", "title": "dbscan on points clusters them by Euclidean distance", "statement": "For every finite set of points with finite coordinates, every eps > 0 and core_min_size >= 2, dbscan with FDBSCAN returns labels that are a DBSCAN (or DBSCAN*) clustering for the Euclidean distance: core points share a label exactly if a chain of core points at most eps apart joins them, border points take the label of a core point at most eps away, the rest is -1. This includes the construction of the tree with the default space-filling curve and all its tests.", "quantifier": "every dimension from 2 to 10, point set, eps, core_min_size, construction, clustering and finalisation schedule", "why_tests_cant": "continuous coordinates, unbounded sizes and schedules", "anchors": ["src/cluster/ArborX_DBSCAN.hpp: dbscan", "src/spatial/ArborX_LinearBVH.hpp: BoundingVolumeHierarchy"]}
{"id": "C56", "title": "MinimumSpanningTree on points is a Euclidean minimum spanning tree", "statement": "For every set of at least two points, MinimumSpanningTree returns n - 1 edges whose weights are the Euclidean distances of their end points (for k > 1 the mutual reachability distances of the Euclidean core distances), that join all points and have the least total weight.", "quantifier": "every dimension from 2 to 10, point set, k, schedules of all kernels", "why_tests_cant": "continuous coordinates, unbounded sizes and schedules", "anchors": ["src/cluster/ArborX_MinimumSpanningTree.hpp: MinimumSpanningTree", "src/cluster/detail/ArborX_BoruvkaHelpers.hpp: FindComponentNearestNeighbors"]}
{"id": "C57", "title": "Neighbour lists of points are exact for the Euclidean distance", "statement": "findHalfNeighborList and findFullNeighborList on points and a radius return compressed row storage in which the pairs at most the radius apart, and no others, occur once (half list) or once in each direction (full list).", "quantifier": "every dimension from 2 to 10, point set, radius, schedules", "why_tests_cant": "continuous coordinates, unbounded sizes and schedules", "anchors": ["src/spatial/detail/ArborX_NeighborList.hpp: findHalfNeighborList, findFullNeighborList"]}
{"id": "C58", "title": "Rays meet triangles exactly where geometry says", "statement": "intersects(Ray, Triangle) returns true if and only if a point of the triangle is on the ray, and intersection(Ray, Triangle, tmin, tmax) returns the parameter of that point; this includes rays which lie in the plane of the triangle.", "quantifier": "every ray and every non-degenerate triangle in three dimensions, and every tolerance", "why_tests_cant": "continuous coordinates, with several sign patterns and a separate algorithm for coplanar rays", "anchors": ["src/geometry/ArborX_Ray.hpp: findLargestComp, rotate2D, rayEdgeIntersect, intersection(Ray, Triangle), intersects(Ray, Triangle)"]}
{"id": "C59", "title": "Segments meet triangles exactly where geometry says", "statement": "intersects(Segment, Triangle) returns true if and only if the segment and the triangle have a common point.", "quantifier": "every segment of positive length and every non-degenerate triangle in three dimensions, and every tolerance", "why_tests_cant": "continuous coordinates; touching and coplanar positions", "anchors": ["src/geometry/algorithms/ArborX_Intersects.hpp: intersects<SegmentTag, TriangleTag>"]}
{"id": "C60", "title": "HDBSCAN returns the single-linkage dendrogram", "statement": "hdbscan(space, points, k, implementation) returns, for both implementations (hybrid Boruvka and union-find), a binary dendrogram of the points: n - 1 mergers with exactly two children each, the last of them the root, all nodes below the root, the height of a merger a distance of two points and not above that of its parent, and two points are below a common merger of height at most h exactly if a chain of points with steps of length at most h connects them; lengths are distances for k <= 1 and mutual reachability distances for k > 1. With at least two points there is no exception, no access out of bounds and no deadlock.", "quantifier": "every set of at least two points at finite distances, ties included, every k, both implementations, every interleaving of the threads of every kernel in every Boruvka iteration, and every behaviour of the library sort on equal keys", "why_tests_cant": "equal distances make the result depend on thread timing and on the order the sort leaves equal keys in; the chains of edges built over several iterations have unbounded length", "anchors": ["src/cluster/ArborX_HDBSCAN.hpp: hdbscan", "src/cluster/ArborX_MinimumSpanningTree.hpp: doBoruvka", "src/cluster/detail/ArborX_BoruvkaHelpers.hpp: updateSidedParents, assignVertexParents, computeParentsAndReorderEdges", "src/cluster/ArborX_Dendrogram.hpp: Dendrogram"]}
{"id": "C61", "title": "Distributed spatial queries return the geometries of all processes that intersect the query", "statement": "A DistributedTree over any number of processes, each with any number (also none) of points, boxes, spheres, segments, triangles and tetrahedra, answers intersects(Q) with, in the row of each query of each process, the callback's output for exactly the geometries of all processes that have a point in common with Q, each once.", "quantifier": "every dimension from 2 to 10, number of processes, distribution of the values, coordinates, queries per process, message order, schedule, sort; pairs of geometries as in C52 other than box-triangle and segment-triangle, triangles and tetrahedra not degenerate", "why_tests_cant": "unbounded sets of inputs, continuous coordinates, all distributions and executions", "anchors": ["src/distributed/ArborX_DistributedTree.hpp: DistributedTree, query", "src/distributed/detail/ArborX_DistributedTreeSpatial.hpp: queryDispatch", "src/geometry/algorithms/ArborX_Intersects.hpp: intersects"]}
{"id": "C62", "title": "Distributed nearest queries return the geometries of smallest Euclidean distance of all processes", "statement": "On the same trees nearest(Q, k), Q a point, box or sphere, gives in the row of each query the callback's output for min(k, n) different geometries of all processes in the order of their Euclidean distance to Q, and no geometry of any process left out is nearer than one that is returned, provided that the 64-entry stacks are large enough for the trees.", "quantifier": "every dimension from 2 to 10, number of processes, distribution, coordinates, queries, k, message order, schedule, outward rounding of the radius of the second phase", "why_tests_cant": "unbounded sets of inputs, continuous coordinates, all distributions and executions", "anchors": ["src/distributed/detail/ArborX_DistributedTreeNearest.hpp: phaseI, phaseII", "src/distributed/detail/ArborX_DistributedTreeNearestHelpers.hpp: approx_expand_by_radius", "src/geometry/algorithms/ArborX_Distance.hpp: distance"]}
{"id": "C63", "title": "Queries with storage on geometries return compressed rows of exactly the intersecting, or nearest, geometries", "statement": "On a BoundingVolumeHierarchy of points, boxes, spheres, segments, triangles and tetrahedra, query(space, predicates, values, offset) returns offset with one row for each predicate, in the order of the predicates: for intersects(Q) the row holds each stored geometry with a point in common with Q once and nothing else, for nearest(Q, k) the min(k, n) stored geometries of smallest Euclidean distance, nearest first; whatever the buffer size, the previous content of values and the sorting of the predicates.", "quantifier": "every dimension from 2 to 10, list of geometries, list of predicates, buffer size, permutation of the predicates, interleaving of the writes, build schedule; for nearest queries, trees for which the 64-entry stack of the traversal is large enough (C06); pairs of geometries as in C52 other than box-triangle and segment-triangle, triangles and tetrahedra not degenerate", "why_tests_cant": "unbounded sets of inputs, continuous coordinates and all interleavings of the atomic counters", "anchors": ["src/spatial/ArborX_LinearBVH.hpp: BoundingVolumeHierarchy, query", "src/spatial/detail/ArborX_CrsGraphWrapperImpl.hpp: queryDispatch", "src/geometry/algorithms/ArborX_Intersects.hpp: intersects", "src/geometry/algorithms/ArborX_Distance.hpp: distance"]}
{"id": "C64", "title": "In floating-point arithmetic a spatial query returns exactly the values that pass the test when it is applied to them directly", "statement": "On a BoundingVolumeHierarchy of points and boxes with floating-point coordinates, intersects(Q) with Q a point, box or ball finds a value if and only if intersects(Q, value) of the library, evaluated with its rounding errors on the value alone, is true: the tree neither loses nor adds anything, so the result does not depend on the shape of the tree. If Q is a box the result is exactly the values that have a point in common with it.", "quantifier": "every dimension, list of values, query, precision, rounding that is monotone and symmetric, with and without fused multiply-adds, overflow included, every build schedule", "why_tests_cant": "rounding could reject the box of a node and accept a value in it for some of the infinitely many inputs; tests sample a few", "anchors": ["src/geometry/algorithms/ArborX_Distance.hpp: distance", "src/geometry/algorithms/ArborX_Intersects.hpp: intersects", "src/spatial/detail/ArborX_TreeTraversal.hpp: TreeTraversal"]}
{"id": "C65", "title": "In floating-point arithmetic a nearest query returns k values of smallest computed distance", "statement": "On the same trees nearest(Q, k) returns min(k, n) different values in the order of their computed distances to Q, and no value left out has a smaller computed distance than one that is returned, as long as no computed distance overflows and the 64-entry stack is large enough for the tree.", "quantifier": "every dimension, list of values, query, k, precision, rounding, contraction, schedule", "why_tests_cant": "pruning compares a rounded distance to a box with a rounded distance to a value; a violation needs particular coordinates", "anchors": ["src/geometry/algorithms/ArborX_Distance.hpp: distance", "src/spatial/detail/ArborX_TreeTraversal.hpp: TreeTraversal (nearest)"]}
{"id": "C66", "title": "Results of queries are right up to the rounding of a few operations", "statement": "With precision u (2^-24 for float, 2^-53 for double), the square of the computed distance of two points in d dimensions is within the factors (1 - u)^(d + 5) and (1 + u)^(d + 5) of the exact one. A ball query finds every value whose distance is smaller than the radius by this factor and none whose distance is larger by it; a nearest query returns values no farther, up to the factor, than any value left out; provided that differences of coordinates are zero or have squares in the normal range, and nothing overflows.", "quantifier": "every dimension, points and boxes, query, radius, k, format; for nearest queries, trees for which the 64-entry stack of the traversal is large enough (C06)", "why_tests_cant": "a bound on rounding errors is a statement on all pairs of floating-point points", "anchors": ["src/geometry/algorithms/ArborX_Distance.hpp: distance", "src/geometry/algorithms/ArborX_Intersects.hpp: intersects"]}
{"id": "C67", "title": "dbscan and neighbour lists are right for the computed distances", "statement": "In floating-point arithmetic dbscan (FDBSCAN) returns a DBSCAN or DBSCAN* clustering, and findHalfNeighborList and findFullNeighborList the half and full neighbour lists, of the points with the neighbourhoods 'computed distance at most eps'. If no pair of points is so close to eps that rounding decides, the clustering is one for the exact Euclidean distances.", "quantifier": "every dimension, list of points, eps, core_min_size, format, distribution of iterations over threads, interleaving", "why_tests_cant": "the neighbourhood test must be symmetric and never be contradicted by the test on boxes for all inputs and interleavings", "anchors": ["src/cluster/ArborX_DBSCAN.hpp: dbscan", "src/spatial/detail/ArborX_NeighborList.hpp: findHalfNeighborList, findFullNeighborList"]}
{"id": "C68", "title": "Minimum spanning trees and HDBSCAN dendrograms are right for the computed distances", "statement": "In floating-point arithmetic, on at least two points at distances that do not overflow, MinimumSpanningTree returns a minimum spanning tree for the computed distances (or mutual reachability distances), whose total Euclidean length is minimal up to rounding, and hdbscan on float coordinates returns a dendrogram of their single-linkage clusters; the sort keys made from the bit patterns of the distances are in the order of the distances. The 64-entry stacks must be large enough for the tree.", "quantifier": "every dimension, list of points, k, format, interleaving of all kernels, behaviour of the sort on equal keys", "why_tests_cant": "ties and rounding interact with the choice of edges of all components in all iterations and interleavings", "anchors": ["src/cluster/ArborX_MinimumSpanningTree.hpp: MinimumSpanningTree", "src/cluster/ArborX_HDBSCAN.hpp: hdbscan", "src/cluster/detail/ArborX_BoruvkaHelpers.hpp: reduction, bit_cast of weights"]}
{"id": "C69", "title": "Distributed spatial queries find every value that the computed test accepts", "statement": "In floating-point arithmetic, a spatial query with a point, a box or a ball on a distributed tree of points and boxes returns to the process that made it, in compressed row storage in the order of its queries, the callback outputs for exactly the values of all processes that the computed test accepts when applied to the value itself, each once.", "quantifier": "every number of processes, distribution of values, dimension, query, format, interleaving and communication order", "why_tests_cant": "rounding on the boxes of the processes and of the trees could hide a value for rare coordinates only", "anchors": ["src/distributed/ArborX_DistributedTree.hpp: DistributedTree, query", "src/distributed/detail/ArborX_DistributedTreeSpatial.hpp: queryDispatch", "src/geometry/algorithms/ArborX_Intersects.hpp: intersects"]}
{"id": "C70", "title": "Distributed nearest queries return the values with the smallest computed distances", "statement": "In floating-point arithmetic, a nearest query with a point, a box or a ball on a distributed tree of points and boxes at distances that do not overflow returns min(k, n) values of all processes in the order of their computed distances, and no value left out on any process has a smaller computed distance.", "quantifier": "every number of processes, distribution of values, dimension, query, k, format, interleaving and communication order", "why_tests_cant": "the radius of the second phase is rounded several times; whether its expansion makes up for that is a question on all floating-point numbers", "anchors": ["src/distributed/detail/ArborX_DistributedTreeNearest.hpp: phaseI, phaseII", "src/distributed/detail/ArborX_DistributedTreeNearestHelpers.hpp: approx_expand_by_radius"]}
{"id": "C71", "title": "Ray casting into a tree finds the boxes on the way of the ray, in order", "statement": "On a tree of boxes in three dimensions intersects(ray) reports exactly the boxes the ray meets, nearest(ray, k) reports the first k boxes on the way of the ray in the order in which it enters them, and ordered_intersects(ray) reports all boxes met in that order; on a tree of triangles intersects(ray) misses no triangle which the ray crosses.", "quantifier": "every number of boxes or triangles, every ray, every k, every callback, every thread schedule of the construction", "why_tests_cant": "pruning by the box test and the order of entry depend on continuous coordinates and on the shape of the tree", "anchors": ["src/geometry/ArborX_Ray.hpp: intersects, distance", "src/spatial/detail/ArborX_Predicates.hpp: Intersects, Nearest, Experimental::OrderedSpatial", "src/spatial/detail/ArborX_TreeTraversal.hpp"]}
{"id": "C72", "title": "Brute force and the tree give the same answers", "statement": "BruteForce reports for every query exactly the stored geometries that have a point in common with it, or the k nearest ones; and on the same values and queries BruteForce and BoundingVolumeHierarchy call the callback on the same values for spatial queries and on values at the same distances for nearest queries, also in floating-point arithmetic.", "quantifier": "every set of points and boxes, every point, box or ball as query, every k, every tile size, every floating-point format, every thread schedule of the construction", "why_tests_cant": "the unit tests compare the two indexes on random clouds; rounding decides differently on a measure-zero set of inputs that random tests do not hit", "anchors": ["src/spatial/ArborX_BruteForce.hpp: BruteForce::query", "src/spatial/detail/ArborX_BruteForceImpl.hpp", "src/spatial/ArborX_LinearBVH.hpp: BoundingVolumeHierarchy::query"]}
{"id": "C73", "title": "Distributed DBSCAN in floating-point arithmetic clusters the points of all processes", "statement": "Distributed DBSCAN on points, with the distances computed in floating-point arithmetic and with the library's own DBSCAN as clustering of every process, gives the labels of a DBSCAN clustering of all points: noise exactly where no core point is within eps, the same label only for connected points.", "quantifier": "every number of processes, distribution of points, dimension, eps, core_min_size, format, thread schedule and communication order", "why_tests_cant": "whether a point within two steps of eps is forwarded depends on the last bit of three computed distances", "anchors": ["src/cluster/ArborX_DistributedDBSCAN.hpp: dbscan", "src/cluster/detail/ArborX_DistributedDBSCANHelpers.hpp: forwardDataAndLabels, computeMergePairs", "src/cluster/ArborX_DBSCAN.hpp: dbscan"]}
{"id": "C74", "title": "Concurrent nearest queries do not influence each other", "statement": "The nearest queries of one call of query, which run concurrently and keep their candidates in parts of one shared buffer, each call the callback on exactly the values they would on their own: no query reads or writes outside of its part of the buffer or reads an entry that was not written, and all queries end.", "quantifier": "every number of queries, every k per query, every tree (and brute force), every interleaving of the single reads and writes of the queries, every schedule of the construction", "why_tests_cant": "a test sees one of the interleavings; the sizes at which the offsets overflow need more memory than a test has", "anchors": ["src/spatial/detail/ArborX_NearestBufferProvider.hpp: NearestBufferProvider", "src/spatial/detail/ArborX_TreeTraversal.hpp: TreeTraversal<NearestPredicateTag>", "src/spatial/detail/ArborX_BruteForceImpl.hpp: query", "src/misc/ArborX_Heap.hpp", "src/misc/ArborX_Containers.hpp: UnmanagedStaticVector"]}
{"id": "C75", "title": "Drawing a tree shows every node and every edge once", "statement": "TreeVisualization::visitAllIterative calls the visitor on every node of the tree exactly once; the output for Graphviz has one node statement with its own label for every value and every internal node, one edge to every node but the root, two edges from every internal node, and every node is reached from the root.", "quantifier": "every number of values, codes, visitor and schedule of the construction", "why_tests_cant": "the stack has 64 entries; trees that need more have a special shape", "anchors": ["src/spatial/detail/ArborX_TreeVisualization.hpp: visitAllIterative, GraphvizVisitor", "src/misc/ArborX_Stack.hpp: Stack"]}
{"id": "C76", "title": "Offsets and counters of type int suffice", "statement": "A query that stores its results in two arrays returns the right rows although it counts results, reserves buffers and stores offsets in variables of type int.", "quantifier": "every number of queries and results, buffer sizes, permutation, kind of predicate and schedule", "why_tests_cant": "the sizes at which a counter wraps around (2^31 results) are out of reach of tests", "anchors": ["src/spatial/detail/ArborX_CrsGraphWrapperImpl.hpp: queryImpl, allocateAndInitializeStorage, InsertGenerator"]}
{"id": "C77", "title": "FDBSCAN-DenseBox clusters correctly in floating-point arithmetic", "statement": "With Implementation::FDBSCAN_DenseBox, dbscan returns a DBSCAN (or DBSCAN*) clustering although the cell length, the cells of the points, the corners of the cells and the distances are all rounded.", "quantifier": "every number of points, dimension, coordinates, radius, number format with or without contraction, and schedule", "why_tests_cant": "whether a cell that should have diameter eps has points farther apart, or a box that misses its points, depends on single roundings of the coordinates", "anchors": ["src/cluster/ArborX_DBSCAN.hpp: dbscan", "src/cluster/detail/ArborX_CartesianGrid.hpp: cellIndex, cellBox, buildGrid", "src/cluster/detail/ArborX_FDBSCANDenseBox.hpp"]}
{"id": "C78", "title": "The tree is right on machines with weak memory", "statement": "The tree construction, whose threads read the volumes and children written by other threads with plain loads, yields the same tree and the same query results as an interleaved execution, provided the exchange on the ranges publishes earlier writes of its thread and the read fence makes published writes visible; neither guarantee can be dropped.", "quantifier": "every number of values, volumes, codes, interleaving of the threads and choice of the values returned by reads that no synchronisation orders", "why_tests_cant": "stale reads depend on the memory system and on timing and do not occur at all on most test machines", "anchors": ["src/spatial/detail/ArborX_TreeConstruction.hpp: GenerateHierarchy::operator(), load_fence, atomic_compare_exchange"]}
{"id": "C79", "title": "Components and clusters are right on machines with weak memory", "statement": "The union-find structure used by the clustering algorithms joins exactly the connected elements, and dbscan (FDBSCAN and FDBSCAN-DenseBox) returns a DBSCAN clustering, although labels are read and written with plain loads and stores that race: a load may return any value the label has held, and a store may be ordered before earlier ones. Every thread finishes after boundedly many of its own steps.", "quantifier": "every number of elements, threads, merged pairs or points, every interleaving and every choice of the values that racing loads return", "why_tests_cant": "stale loads and reordered stores depend on the hardware and on timing; the comment in the code argues that the races are benign but no test can show it", "anchors": ["src/cluster/detail/ArborX_UnionFind.hpp: representative, merge, merge_into", "src/cluster/ArborX_DBSCAN.hpp: finalize_labels", "src/cluster/detail/ArborX_FDBSCAN.hpp"]}
{"id": "C80", "title": "A batch of queries makes each matching call of the callback once, in any order", "statement": "A batch of spatial queries with a callback calls it, for every query and every stored value that matches it, exactly once, with that query's index attached, whether the queries are sorted along the space-filling curve or not and however they are interleaved. A query whose callback asks to stop makes no further call; it does not affect the other queries. If the calls commute in their effect on shared data (atomic additions, minima), the data at the end depend neither on the schedule nor on the sorting. Every query ends after a number of its own steps bounded by twice the number of values.", "quantifier": "every set of values, every number of queries and predicates that are monotone on volumes, every callback with its shared data, sorting on or off, every interleaving", "why_tests_cant": "the interleavings of the calls and the states of the shared data are unboundedly many; a test runs one schedule", "anchors": ["src/spatial/ArborX_LinearBVH.hpp: BoundingVolumeHierarchy::query (with callback)", "src/spatial/detail/ArborX_TreeTraversal.hpp: TreeTraversal<SpatialPredicateTag>", "src/spatial/detail/ArborX_PermutedData.hpp: operator()", "src/spatial/detail/ArborX_Callbacks.hpp: invoke_callback_and_check_early_exit", "src/spatial/detail/ArborX_AttachIndices.hpp"]}
{"id": "C81", "title": "Trees with k-DOPs as bounding volumes find every value, in floating point", "statement": "A tree whose bounding volumes are k-DOPs (any of the six supported sets of directions) returns, for a query with a point, a box or a k-DOP, each stored point, box or k-DOP exactly once if it intersects the query according to intersects(), and nothing else. The rounding and overflow of the projections computed for the volumes never loses a value; for points and boxes against a box the answer is the exact geometric one, as with boxes as bounding volumes.", "quantifier": "every number of points, boxes and k-DOPs, every query, every k-DOP family, every monotone rounding with overflow to infinity, every schedule of the construction", "why_tests_cant": "loss of a value by rounding happens only for particular coordinates next to a face of a volume; the coordinates and trees are unboundedly many", "anchors": ["src/geometry/ArborX_KDOP.hpp: KDOP", "src/geometry/algorithms/ArborX_Expand.hpp: expand<KDOPTag, ...>", "src/geometry/algorithms/ArborX_Intersects.hpp: intersects<KDOPTag, BoxTag>, intersects<PointTag, KDOPTag>, intersects<KDOPTag, KDOPTag>", "src/spatial/ArborX_LinearBVH.hpp: BoundingVolumeHierarchy"]}
{"id": "C82", "title": "The minimum spanning tree does not depend on the schedule", "statement": "Two executions of MinimumSpanningTree with the same points and k return the same edges with the same weights, up to their order and direction, even when many spanning trees are minimal (as is usual for k > 1): the choice among edges of equal weight does not depend on the interleaving of the threads, on the values returned by racing loads, or on whether the execution space is Serial (which shares search radii and lower bounds between points) or not. The weights, and for distinct weights also the edges, do not depend either on the order into which the sort puts points with the same Morton code.", "quantifier": "every set of points with ties of any kind, every k, every two schedules of all kernels of all iterations, both code paths", "why_tests_cant": "a wrong tie-break shows only for particular ties under particular schedules; pairs of executions on all inputs cannot be enumerated", "anchors": ["src/cluster/ArborX_MinimumSpanningTree.hpp: MinimumSpanningTree", "src/cluster/detail/ArborX_BoruvkaHelpers.hpp: DirectedEdge, FindComponentNearestNeighbors, retrieveEdges, UpdateComponentsAndEdges"]}
{"id": "C83", "title": "bounds() and size() describe all values", "statement": "bounds() of a tree is the smallest bounding volume of all stored values: it contains each of them and is contained in every volume that contains them all; a tree without values has empty bounds. This holds for BVH, BruteForce and, on every process with the values of all processes, DistributedTree, for every schedule of the construction, and for geometries with finite coordinates the result is the smallest axis-aligned box around them. size() of a DistributedTree is the number of values of all processes.", "quantifier": "every set of values on every number of processes (some or all without values), every schedule of the constructions and arrangement of the reductions, strong and weak memory", "why_tests_cant": "the bounds come from a concurrent bottom-up pass over a tree of unbounded size; the size is a sum whose type matters only beyond 2^31 values", "anchors": ["src/spatial/ArborX_LinearBVH.hpp: bounds, size", "src/spatial/ArborX_BruteForce.hpp: bounds", "src/spatial/detail/ArborX_BruteForceImpl.hpp: initializeBoundingVolumesAndReduceBoundsOfTheScene", "src/distributed/ArborX_DistributedTree.hpp: bounds, size, DistributedTree"]}
{"id": "C84", "title": "Nearer sources weigh more in the interpolation", "statement": "For each of the nine compact radial basis functions, the value depends only on the distance, is continuous, strictly decreases from the centre to distance 1 and vanishes exactly from there on. Hence in MovingLeastSquares, of two source points of a target the nearer one has the larger weight, equidistant ones have equal weights, and no weight exceeds that of a source on the target.", "quantifier": "every radial basis function, every dimension, number of sources and all positions of sources and target", "why_tests_cant": "a monotonicity statement about real functions, among them one with a logarithm and two with square roots; tests evaluate them at a few points", "anchors": ["src/interpolation/detail/ArborX_InterpDetailsCompactRadialBasisFunction.hpp: CRBF_DEF, evaluate", "src/interpolation/detail/ArborX_InterpDetailsMovingLeastSquaresCoefficients.hpp: sourceNormalization, phiComputation"]}
{"id": "C85", "title": "Searches on points with attached indices return the right pairs", "statement": "Build a BVH on attach_indices(points) and query it with make_intersects(queries, r): the row of each query holds, for every stored point at Euclidean distance at most r, the pair of this point and its position in the user's array, exactly once, and nothing else. With make_nearest(queries, k) it holds the pairs of the min(k, n) nearest points, nearest first. The index type must be able to hold all positions; otherwise two points are stored with the same index.", "quantifier": "every list of points, query points, radius and k, every index width that holds the positions, every schedule of construction and queries, buffer size and order of the predicates; for nearest queries, trees for which the 64-entry stack of the traversal is large enough (C06)", "why_tests_cant": "an end-to-end statement over all point sets, schedules and index widths", "anchors": ["src/spatial/detail/ArborX_AttachIndices.hpp: attach_indices, AccessTraits", "src/spatial/detail/ArborX_PairValueIndex.hpp: PairValueIndex", "src/spatial/detail/ArborX_PredicateHelpers.hpp: make_intersects, make_nearest", "src/spatial/detail/ArborX_IndexableGetter.hpp: DefaultIndexableGetter"]}
{"id": "C86", "title": "HDBSCAN gives the same hierarchy whatever the implementation and the schedule", "statement": "Two calls of hdbscan on the same points with the same k return the same heights up to their order, and at every height the same clusters: two points are below a common merger up to this height in one dendrogram exactly if they are in the other. The calls may use different implementations, different schedules of all kernels, and different behaviour of the library sort on equal keys.", "quantifier": "every set of at least two points at finite distances, ties included, every k, both implementations on either side, every pair of executions", "why_tests_cant": "ties make edges, parents and the order of the heights depend on thread timing, so two runs cannot be compared directly, and agreement on some runs says nothing about others", "anchors": ["src/cluster/ArborX_HDBSCAN.hpp: hdbscan", "src/cluster/ArborX_Dendrogram.hpp: Dendrogram", "src/cluster/ArborX_MinimumSpanningTree.hpp: doBoruvka"]}
{"id": "C87", "title": "Ray casting on boxes in floating-point arithmetic", "statement": "On a tree of boxes, intersects(ray) calls the callback once for each box that the ray test accepts when it is applied to that box, and for no other; nearest(ray, k) calls it on the k boxes of smallest finite computed distance along the ray, in order; ordered_intersects(ray) calls it on all boxes of finite computed distance, in order. The computed test agrees with geometry up to its roundings: a ray that stays in a box for a stretch longer than the rounding error of the parameters hits it, at the parameter where it enters up to a relative error; a ray that is found to hit a box is, at the computed distance up to a relative error, between the planes of the box in each dimension.", "quantifier": "every finite set of boxes, every ray, every format with monotone symmetric rounding (for the accuracy: with a relative error in a range of magnitudes), every schedule of the construction, every sign of the NaNs of the machine", "why_tests_cant": "rounding can make an internal node reject a ray that a leaf below it accepts; that it never does holds only because every step of the test is monotone in the box, for all boxes and rays; the exceptions are at zeros of the direction and at overflow, which random tests do not meet", "anchors": ["src/geometry/ArborX_Ray.hpp: intersection(Ray, Box), intersects(Ray, Box), distance(Ray, Box)", "src/spatial/detail/ArborX_Predicates.hpp: intersects, nearest, ordered_intersects", "src/spatial/detail/ArborX_TreeTraversal.hpp"]}
{"id": "C88", "title": "DBSCAN is a cut of HDBSCAN, and larger radii only join clusters", "statement": "If dbscan with the algorithm DBSCAN*, radius eps and core_min_size k, and hdbscan with the same k are called on the same points, at least k of them, then two points get the same cluster label exactly if the dendrogram merges them at a height of at most eps; with the algorithm DBSCAN this holds for the core points. If dbscan is called a second time with a larger radius or a smaller core_min_size, points of one cluster (for DBSCAN: core points) stay in one cluster, and no point becomes noise.", "quantifier": "every set of points, every radius and core_min_size, both implementations of hdbscan, every pair of executions of all kernels; exact arithmetic and float", "why_tests_cant": "it relates the outputs of two different parallel algorithms, whose labels and edges depend on thread timing, for every input and every radius; a test fixes a few inputs and radii", "anchors": ["src/cluster/ArborX_DBSCAN.hpp: dbscan", "src/cluster/ArborX_HDBSCAN.hpp: hdbscan", "src/cluster/ArborX_Dendrogram.hpp: Dendrogram"]}
{"id": "C89", "title": "Queries on segments, triangles and tetrahedra in floating-point arithmetic", "statement": "A spatial or nearest query on a tree of segments, triangles or tetrahedra, whose coordinates, tests and distances are computed in a floating-point format, returns what the tests and distances computed for the values themselves say: an intersects query returns exactly the values the computed test accepts, a nearest query the k values with the smallest computed distances.", "quantifier": "every floating-point format with monotone rounding, every set of values, every query point, box or ball, every schedule of the construction", "why_tests_cant": "the test of a value and the test of the boxes around it are different rounded computations, and whether they disagree depends on the last bits of the coordinates; tests compare a few inputs away from boundaries", "anchors": ["src/geometry/algorithms/ArborX_Intersects.hpp: intersects<PointTag, TriangleTag>, intersects<BoxTag, TriangleTag>", "src/geometry/algorithms/ArborX_Expand.hpp: expand", "src/spatial/ArborX_LinearBVH.hpp: BoundingVolumeHierarchy::query"]}
{"id": "C90", "title": "Clusterings and trees only depend on the pairwise distances", "statement": "If two sets of points have the same pairwise distances up to the numbering of the points - because the points are given in another order, or were translated, rotated, reflected or embedded in a space of another dimension - then dbscan gives the same noise and the same clusters (for DBSCAN: of the core points), the minimum spanning trees have the same weights and, for distinct distances, the same edges, and hdbscan gives the same heights and at every height the same clusters, whatever the implementation, the schedules and the space-filling curve.", "quantifier": "every two sets of points with a renumbering that preserves the distances, every arithmetic, k, eps, implementation, tree and schedule of both calls", "why_tests_cant": "the order and the position of the points change the Morton codes, the trees, the order of unions and the breaking of ties, so a dependence can appear for any single pair of inputs; tests compare a few", "anchors": ["src/cluster/ArborX_DBSCAN.hpp: dbscan", "src/cluster/ArborX_MinimumSpanningTree.hpp: MinimumSpanningTree", "src/cluster/ArborX_HDBSCAN.hpp: hdbscan"]}
{"id": "C91", "title": "Node numbers of type int do not overflow up to 2^30 values", "statement": "Building a BoundingVolumeHierarchy on up to 2^30 values, and a query or traversal of any kind on it (spatial, nearest, ordered along a ray, all pairs), never computes a node number that does not fit into an int, so the tree and the results are those of unbounded arithmetic (in builds with assertions: on fewer than 2^30 values). With more values no construction can finish without an overflow.", "quantifier": "every number of values, every set of Morton codes, every schedule of the construction, every predicate; for nearest queries, trees for which the 64-entry stack of the traversal is large enough (C06)", "why_tests_cant": "the boundary needs a billion values and tens of gigabytes, and a single thread of the construction computes the number that overflows", "anchors": ["src/spatial/detail/ArborX_TreeConstruction.hpp: GenerateHierarchy::internalIndex, setRope, operator()", "src/spatial/detail/ArborX_HappyTreeFriends.hpp: isLeaf, internalIndex, getRoot", "src/spatial/detail/ArborX_TreeTraversal.hpp: TreeTraversal", "src/spatial/detail/ArborX_HalfTraversal.hpp: HalfTraversal"]}
{"id": "C92", "title": "NaN and infinite coordinates do not disturb queries for other values", "statement": "If values or predicates have NaN or infinite coordinates, a spatial query on points and boxes still terminates, calls the callback at most once per value and only on values the test accepts, and on all those without NaN; a query for the points in a ball (of finite radius or center) is exact and never returns a point with NaN; a nearest query on at least two points returns the k nearest among those at finite distance and none at NaN distance.", "quantifier": "every set of values and every predicate with arbitrary floating-point coordinates, every floating-point format, every Morton codes and schedule of the construction; for nearest queries, trees for which the 64-entry stack of the traversal is large enough (C06); the conversion of a NaN to an integer for the space-filling curve, which is undefined in C++ (C103), is taken to yield any integer", "why_tests_cant": "one NaN among millions of values can be anywhere in the tree, and its effect depends on the boxes and codes around it; tests use no NaN", "anchors": ["src/geometry/algorithms/ArborX_Expand.hpp: expand", "src/geometry/algorithms/ArborX_Intersects.hpp: intersects", "src/geometry/algorithms/ArborX_Distance.hpp: distance", "src/spatial/detail/ArborX_TreeTraversal.hpp: TreeTraversal"]}
{"id": "C93", "title": "Points with NaN or infinite coordinates are noise and do not influence the clusters of dbscan", "statement": "If some of the points given to dbscan (with the FDBSCAN implementation) have NaN or infinite coordinates, the call still terminates, labels these points noise, and gives all finite points exactly the clustering which it would give without the others: the same points are noise, and the label of each core point is the position of the label it has in the call with the finite points only.", "quantifier": "every set of points with arbitrary floating-point coordinates, every positive finite epsilon, every core size at least two, both variants, every floating-point format, every Morton codes, thread distribution and interleaving; the conversion of a NaN to an integer for the space-filling curve, which is undefined in C++ (C103), is taken to yield any integer", "why_tests_cant": "tests use no NaN; the effect of one such point would depend on its place in the tree, on the boxes around it and on the interleaving of the unions", "anchors": ["src/cluster/ArborX_DBSCAN.hpp: dbscan", "src/cluster/detail/ArborX_FDBSCAN.hpp: FDBSCANCallback, CCSCorePoints", "src/geometry/algorithms/ArborX_Expand.hpp: expand", "src/geometry/algorithms/ArborX_Intersects.hpp: intersects"]}
{"id": "C94", "title": "Spanning trees and HDBSCAN of points some of whose distances are infinite", "statement": "If distances of points given to MinimumSpanningTree or hdbscan are infinite (for coordinates of type float already when two coordinates differ by 2^64, as the square overflows), a minimum spanning tree or dendrogram of the finite distances is computed as long as one gets from every point to every other in finite steps; core distances then count only the points at finite distance. Otherwise (a defect) no result is returned: the threads access memory out of bounds.", "quantifier": "every number of points below 2^31 (hdbscan: up to 2^30), every symmetric distances any of which may be infinite, every k, every floating-point format, both implementations, every interleaving of all kernels", "why_tests_cant": "tests use points in a small box; which component is left without an edge, and in which iteration, depends on the distances and on the schedule", "anchors": ["src/cluster/ArborX_MinimumSpanningTree.hpp: MinimumSpanningTree", "src/cluster/detail/ArborX_BoruvkaHelpers.hpp: FindComponentNearestNeighbors, computeNextComponent, retrieveEdges", "src/cluster/ArborX_HDBSCAN.hpp: hdbscan"]}
{"id": "C95", "title": "Messages between processes arrive whatever their size in bytes", "statement": "The exchange of data between processes (used by distributed queries and distributed DBSCAN) delivers every item as long as the message between any two different processes has less than 2^31 bytes and the numbers of items fit into an int. From 2^31 bytes on (a defect) MPI is given a wrong byte count: either the call fails or, as for a message of exactly 2^32 bytes, it succeeds and the receiving process has uninitialised memory in place of the items. The same holds for the merge pairs of distributed DBSCAN if all processes together have 2^31 bytes of them.", "quantifier": "every number of processes, every distribution of items, every positive item size, every order of arrival and execution", "why_tests_cant": "a test would need messages of gigabytes; below the limit nothing is visible", "anchors": ["src/distributed/detail/ArborX_Distributor.hpp: Distributor::createFromSends, doPostsAndWaits", "src/cluster/detail/ArborX_DistributedDBSCANHelpers.hpp: communicateMergePairs, computeCountsAndOffsets"]}
{"id": "C96", "title": "Results do not depend on when the device executes what it was given", "statement": "Kernels, copies and messages are executed at any time between their launch and the next fence of their execution space (or the end of the wait for the messages). Whatever these times, queries with CSR results, the layout and exchange of messages, the spanning tree with and without dendrogram, the dendrogram by union-find and the gathering of boxes and merge pairs give the results of the execution in order, never wait forever, and the host never looks at data that is not ready. Not so (defects, by the specification of Kokkos) for the volume of a tree, which is copied to the object without a fence: bounds() may return the empty volume right after the construction; the constructor of a distributed tree may gather the empty volume of a process, so that queries miss all it stores, and there a fence after the construction of the bottom tree's member would be too late, as the tree is moved before; and the global labels of distributed DBSCAN may be computed from a destroyed vector.", "quantifier": "every order and time of execution of kernels, copies and messages, every content of the arrays, every effect of the kernels, any number of iterations and messages", "why_tests_cant": "on hosts and on most devices copies to pageable memory happen to be synchronous; a test sees one timing", "anchors": ["src/spatial/detail/ArborX_TreeConstruction.hpp: initializeSingleLeafTree, GenerateHierarchy", "src/spatial/ArborX_LinearBVH.hpp: BoundingVolumeHierarchy, bounds", "src/distributed/ArborX_DistributedTree.hpp: DistributedTree", "src/distributed/detail/ArborX_Distributor.hpp: doPostsAndWaits, determineBufferLayout, sortAndDetermineBufferLayout", "src/spatial/detail/ArborX_CrsGraphWrapperImpl.hpp: queryImpl", "src/kokkos_ext/ArborX_KokkosExtViewHelpers.hpp: lastElement", "src/cluster/ArborX_MinimumSpanningTree.hpp: doBoruvka", "src/cluster/detail/ArborX_DendrogramHelpers.hpp: dendrogramUnionFind", "src/cluster/detail/ArborX_DistributedDBSCANHelpers.hpp: convertLocalToGlobal, gatherGlobalBoxes, communicateMergePairs"]}
{"id": "C97", "title": "Distributed functions never wait for ever, and their results do not depend on the timing of processes and messages", "statement": "Each process calls the constructor of a distributed tree and its queries (spatial with output, with a callback only, nearest; any number of them, then the destructor), or distributed DBSCAN. Processes may be ahead of each other by any number of operations, messages are delivered at any time, and sends may or may not wait for their receives. Every execution of all processes ends, is never stuck before, gives the results of C28, C29 and C48 and leaves no message behind. Not so (defect) for distributed DBSCAN if its user has sent a message with the same tag on the communicator, which distributed DBSCAN does not duplicate: the library receives it, labels are wrong or all processes wait for ever.", "quantifier": "every number of processes, all their values and queries, every interleaving of the processes, every time of delivery, every choice of MPI which sends end before they are received, any number of calls", "why_tests_cant": "a test sees one interleaving, usually with small messages that MPI buffers, and processes that start together", "anchors": ["src/distributed/detail/ArborX_Distributor.hpp: createFromSends, preparePointToPointCommunication, doPostsAndWaits", "src/distributed/ArborX_DistributedTree.hpp: DistributedTreeBase", "src/distributed/detail/ArborX_DistributedTreeUtils.hpp: forwardQueries, communicateResultsBack, forwardQueriesAndCommunicateResults", "src/distributed/detail/ArborX_DistributedTreeSpatial.hpp: queryDispatch", "src/distributed/detail/ArborX_DistributedTreeNearest.hpp: phaseI, phaseII, queryDispatch", "src/cluster/ArborX_DistributedDBSCAN.hpp: dbscan", "src/cluster/detail/ArborX_DistributedDBSCANHelpers.hpp: gatherGlobalBoxes, computeCountsAndOffsets, forwardNeighbors, communicateNeighborDataBack, communicateMergePairs"]}
{"id": "C98", "title": "A call of a distributed function is one collective operation, whatever the user communicates around it", "statement": "The processes of a program communicate on communicators of their own (messages under way, collective operations, waits, in any order) and call queries of a distributed tree, any number of times. If the program always ends with certain results when each call is regarded as one collective operation, which no process leaves before all processes have entered it and which returns the results of C28 or C29, then the program with the calls of the library, executed message by message and interleaved with the communication of the user in any way, always ends, is never stuck, and has these results. The same holds for distributed DBSCAN (C48) on a communicator that is used for nothing else.", "quantifier": "every program of the user, every number of processes, all values and queries, any number of calls, every interleaving and time of delivery, every choice of MPI which sends end before they are received", "why_tests_cant": "a test runs one program of a user, or none, with one interleaving", "anchors": ["src/distributed/ArborX_DistributedTree.hpp: DistributedTreeBase (the communicator is duplicated)", "src/distributed/detail/ArborX_Distributor.hpp: createFromSends, preparePointToPointCommunication, doPostsAndWaits", "src/distributed/detail/ArborX_DistributedTreeSpatial.hpp: queryDispatch", "src/distributed/detail/ArborX_DistributedTreeNearest.hpp: queryDispatch", "src/cluster/ArborX_DistributedDBSCAN.hpp: dbscan"]}
{"id": "C99", "title": "Moving least squares interpolation does not hang", "statement": "The iteration that decomposes the symmetric matrix of a target of the interpolation ends in floating-point arithmetic for every matrix, also with infinite entries and NaN (coordinates that are not finite, overflow), whether or not the compiler contracts products and sums, for float with matrices of up to 150 rows and double with up to 1000 rows. There is a number of iterations after which it has ended, and its result is determined.", "quantifier": "every symmetric matrix of floating-point numbers with infinities and NaN, every choice of the signs of zeros and NaN, with and without fused multiply-add", "why_tests_cant": "a test runs a few matrices; an iteration that does not end shows for particular roundings, overflows or NaN only", "anchors": ["src/misc/ArborX_SymmetricSVD.hpp: argmaxUpperTriangle, jacobiRotationCoefficients, symmetricSVDKernel", "src/interpolation/detail/ArborX_InterpDetailsMovingLeastSquaresCoefficients.hpp"]}
{"id": "C100", "title": "Decomposition of the interpolation is accurate in floating-point arithmetic", "statement": "For every symmetric matrix of finite numbers within a range the decomposition of the interpolation does not overflow or give NaN, ends within a number of iterations that depends only on the size of the matrix, its norm and the tolerance, and returns values D and a matrix U such that U is close to an orthogonal matrix V and V D V^T is close to the input. In double, for up to 20 rows and norms up to 2^20: 57600 iterations, errors of entries at most 2^-29 times the norm plus the tolerance times the number of rows, and 2^-26 for U. In float, for up to 4 rows and norms up to 2^10: 1056 iterations, 2^-6 times the norm plus the tolerance, and 2^-5 for U.", "quantifier": "every symmetric matrix of finite entries with bounded norm, every choice of the signs of zeros, with and without fused multiply-add; every floating-point format that rounds with a given relative error, underflow error and range", "why_tests_cant": "a test compares the results of a few matrices with a tolerance; loss of orthogonality and growth of errors over iterations show for particular matrices only", "anchors": ["src/misc/ArborX_SymmetricSVD.hpp: argmaxUpperTriangle, jacobiRotationCoefficients, symmetricSVDKernel", "src/interpolation/detail/ArborX_InterpDetailsMovingLeastSquaresCoefficients.hpp"]}
{"id": "C101", "title": "Interpolation is accurate for every radial function", "statement": "For every radial basis function that the library offers and for float as well as double: if the positions of the sources of a target determine the polynomials of the chosen degree well, then the interpolation reproduces these polynomials up to a small multiple of the machine epsilon.", "quantifier": "every dimension, degree, radial basis function, target and set of sources", "why_tests_cant": "tests use a few functions and sources at different distances from the target; small weights occur for particular functions and positions", "anchors": ["src/misc/ArborX_SymmetricSVD.hpp: symmetricSVDKernel", "src/interpolation/detail/ArborX_InterpDetailsMovingLeastSquaresCoefficients.hpp: sourceNormalization, phiComputation, momentComputation", "src/interpolation/detail/ArborX_InterpDetailsCompactRadialBasisFunction.hpp: Wendland, Wu, Buhmann"]}
{"id": "C102", "title": "Distributed trees may be copied, moved and destroyed in any order", "statement": "Whatever a program does with DistributedTree objects (default construction, construction on a communicator, also one that throws, copies, moves, assignments, destruction, queries), as long as it only uses objects that exist and are not moved from: every construction duplicates the communicator once; every query of the tree or of a copy uses this duplicate and the contents given to the constructor; the duplicate is freed exactly once, when the last object that comes from the construction is gone, and never used afterwards. Processes that do the same make these calls in the same order.", "quantifier": "every number of variables and every history of operations", "why_tests_cant": "tests copy or move a tree once or twice; a double free, a leak or a use after the free shows only in particular orders", "anchors": ["src/distributed/ArborX_DistributedTree.hpp: DistributedTreeBase, _comm_ptr, getComm"]}
{"id": "C103", "title": "Positions on the space-filling curve are well defined", "statement": "Building a tree of finite values, or sorting predicates before a query, never performs an undefined conversion when it computes the position of an object on the space-filling curve, whatever the rounding and overflows on the way; the position interleaves the numbers of the cells of the coordinates of the centroid, cells are numbered in increasing order along each axis, the lower face of the scene is in the first cell and the upper face in the last one, and the highest bit of a 64-bit position is clear.", "quantifier": "every finite set of points, balls, boxes, segments, triangles and tetrahedra with floating-point coordinates, every predicate, every number of dimensions up to 10, both curves, float and double", "why_tests_cant": "tests use scenes of moderate extent; conversions of NaN or of numbers out of range are undefined and happen only for extreme coordinates, and give different results on different machines", "anchors": ["src/spatial/detail/ArborX_SpaceFillingCurves.hpp: Morton32, Morton64, projectOntoSpaceFillingCurve", "src/geometry/algorithms/ArborX_TranslateAndScale.hpp: translateAndScale", "src/spatial/detail/ArborX_MortonCode.hpp: morton32, morton64", "src/geometry/algorithms/ArborX_Centroid.hpp: returnCentroid"]}
{"id": "C104", "title": "Validity and equality of geometries", "statement": "The test whether a geometry is valid accepts exactly the points with finite coordinates, the spheres with a finite centre and a finite radius that is not negative, and the boxes with finite corners in order; two geometries are equal exactly if they have the same coordinates and none is NaN, and geometries that compare equal give the same answers to the same questions.", "quantifier": "every point, box, sphere and ray, with NaN and infinite coordinates, every number of dimensions, every rounding", "why_tests_cant": "the sets of finite numbers and of pairs of them are too large to try, and the exceptions are at overflows, zero extents and signs of zeros", "anchors": ["src/geometry/algorithms/ArborX_Valid.hpp: isValid", "src/geometry/algorithms/ArborX_Equals.hpp: equals", "src/geometry/ArborX_Ray.hpp: equals"]}
{"id": "C105", "title": "Minima and maxima of views", "statement": "The smallest and the largest entry of a view that is not empty are found whatever the number of threads, the way they share out the entries and the order in which their partial results are joined; so the destinations of messages are determined by the ranks alone.", "quantifier": "every view of integers or floating-point numbers, NaN included, every distribution of the indices over threads and every order of joining partial results", "why_tests_cant": "the number of threads and the order of joins vary from run to run and from machine to machine", "anchors": ["src/kokkos_ext/ArborX_KokkosExtMinMaxReduce.hpp: min_reduce, max_reduce, minmax_reduce", "src/distributed/detail/ArborX_Distributor.hpp: sortAndDetermineBufferLayout, createFromSends"]}
{"id": "C106", "title": "NaN and infinite coordinates in the dense-box clustering", "statement": "The clustering that sorts points into dense boxes computes, for every input, a cell for each point or reports an error: coordinates that are NaN or infinite are rejected or handled, as they are by the variant without boxes.", "quantifier": "every list of points whose coordinates are finite numbers, infinities or NaN, every number of dimensions, every cell length and every rounding", "why_tests_cant": "undefined conversions give some number on every machine, so a test passes on one and says nothing about another; the sets of coordinates are too large to try", "anchors": ["src/cluster/detail/ArborX_CartesianGrid.hpp: CartesianGrid, buildGrid, cellIndex", "src/cluster/ArborX_DBSCAN.hpp: dbscan", "src/cluster/detail/ArborX_FDBSCANDenseBox.hpp: computeCellIndices"]}
{"id": "C107", "title": "Internal checks of the interpolation never stop the program", "statement": "In builds with assertions, the moving least squares interpolation never aborts because of its own consistency checks: for every target and all positions of its sources, the number of eigenvalues it takes for zero is positive whenever it takes the matrix for singular, equals the number of monomials it removes, and nothing is left to remove afterwards.", "quantifier": "every dimension, degree, radial function, target, number and positions of sources, every machine epsilon", "why_tests_cant": "the two counts of zeros compare different quantities with the same tolerance; they agree on all but a thin set of positions of the sources, which no list of examples hits by chance", "anchors": ["src/interpolation/detail/ArborX_InterpDetailsMovingLeastSquaresCoefficients.hpp: MovingLeastSquaresCoefficientsKernel::operator(), rowEchelonForm, isSingularMatrix", "src/misc/ArborX_SymmetricSVD.hpp: symmetricSVDKernel"]}
{"id": "C108", "title": "The verification of a clustering accepts exactly the valid clusterings", "statement": "verifyDBSCAN, with which the tests and benchmarks check every clustering, returns true for given labels exactly if they are a clustering in the sense of DBSCAN (or DBSCAN*): core points have nonnegative labels, two core points the same label exactly if a chain of core points connects them, border points that of a core point near them (-1 for DBSCAN*), noise points -1. It terminates and makes no invalid access. The version for distributed points does the same for the points of all processes.", "quantifier": "all numbers and positions of points, radii, minimal numbers of points, labels, orders of the query results, numbers of processes and distributions of the points", "why_tests_cant": "it is the oracle of the tests: a test of the oracle can only try labels someone thought of, while a wrong clustering it accepts is by nature one nobody tried", "anchors": ["benchmarks/cluster/ArborX_DBSCANVerification.hpp: verifyDBSCAN, verifyCorePointsNonnegativeIndex, verifyConnectedCorePointsShareIndex, verifyNoisePoints, verifyConnectedBorderPoints, verifyIgnoredBorderPoints, verifyClustersAreUnique", "test/tstDBSCAN.cpp", "benchmarks/cluster/distributed_dbscan.cpp"]}
{"id": "C109", "title": "Locating points in a mesh of tetrahedra, flat ones included", "statement": "On a tree of tetrahedra, intersects(point) reports exactly the tetrahedra that contain the point, and nearest(point, k) the k tetrahedra nearest to it, also if the mesh has tetrahedra without volume, whose vertices are in a plane.", "quantifier": "every number and positions of tetrahedra with any vertices, every point, every k, every schedule of the construction", "why_tests_cant": "flat tetrahedra are a set of measure zero among all tetrahedra that no random test meets, and their effect depends on the rest of the tree", "anchors": ["src/geometry/algorithms/ArborX_Intersects.hpp: intersects<PointTag, TetrahedronTag>", "src/geometry/algorithms/ArborX_Distance.hpp: distance<PointTag, TetrahedronTag>", "src/spatial/detail/ArborX_TreeTraversal.hpp"]}
{"id": "C110", "title": "Boxes with nothing in them are stored harmlessly", "statement": "Default-constructed boxes (whose minimum corner is the largest and whose maximum corner is the smallest finite number) may be among the values of a tree: the construction is defined, no query with a box, a point or a ball and no query for nearest values returns them, and the other values are found as if the empty boxes were not there. More generally, a box whose corners are the wrong way round changes nothing for other values and is itself treated by the tree as by a search of all values.", "quantifier": "every mix of points, ordinary boxes and boxes with corners in any order, every query that does not reach the ends of the range of the type, float and double, every schedule of the construction", "why_tests_cant": "what an inverted box does to the bounding volumes depends on all other values, the arithmetic at the ends of the range overflows, and the number of combinations is unlimited", "anchors": ["src/geometry/ArborX_Box.hpp: Box()", "src/geometry/algorithms/ArborX_Expand.hpp", "src/geometry/algorithms/ArborX_Intersects.hpp: intersects<BoxTag, BoxTag>", "src/geometry/algorithms/ArborX_ClosestPoint.hpp: closestPoint<PointTag, BoxTag>", "src/spatial/detail/ArborX_TreeTraversal.hpp"]}
