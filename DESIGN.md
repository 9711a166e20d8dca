# A Lean 4 model of ArborX

The model lives in `lean/Verif/`. `properties.jsonl` lists the properties,
`MANIFEST.json` maps each property to theorem names.

## Trusted base

* Lean 4.33.0's kernel. The theorems use at most the axioms `propext`,
  `Classical.choice`, `Quot.sound`; `Verif/Audit.lean` prints them for the
  property theorems. No `sorry`, no added axiom, no `native_decide`/`bv_decide`.
* The transcription of the C++ code into Lean definitions. Every definition
  cites the file and lines it models and says what it simplifies. Nothing is
  extracted or executed.
* Mathlib, as checked by the kernel.
* The specifications of what is taken from outside the library: Kokkos
  (`parallel_for`, `parallel_scan`, `parallel_reduce`, sort, atomics), MPI, the C++
  standard library. They are stated next to the models that use them.

## Modelling conventions

* **Coordinates.** Algorithms that only compare coordinates (box/box and
  point/box tests, `expand`, sorting, heaps, nearest pruning) are modelled over
  an arbitrary linear order, which covers IEEE numbers without NaN (with -0 and
  +0 identified). Algorithms that do arithmetic are modelled over a linearly
  ordered field (exact arithmetic). Rounding is not modelled there; C64-C70 prove
  what remains true when every operation is rounded: `Fp/Model.lean` computes the
  distances and tests of points, boxes and balls with any monotone, symmetric rounding
  that overflows to infinity, with and without contraction to fused multiply-adds, and
  `Fp/Ieee.lean` shows that `float` and `double` (round to nearest even, subnormal
  numbers) are instances.
  Where signed zeros matter (ray/box) a small explicit model of them is used.
  Where rounding decides an integer result (Morton quantisation, tile counts of the
  brute force) `Float/Round.lean` models round-to-nearest of the precision in
  question. Square roots need the real numbers; infinities are added as
  `Ext K = WithBot (WithTop K)`. Tolerances of the code are kept as parameters.
* **Integers.** `int` indices are natural numbers or integers; overflow is not
  modelled except in the Morton / split-key / DirectedEdge modules, which use
  `BitVec`, in the sums of counts of C70, C74 and C83, and for the node numbers of
  the tree (C91: up to 2^30 values nothing overflows, so there the natural numbers
  of the other modules lose nothing).
* **Undefined behaviour** (out-of-bounds accesses, reading uninitialised nodes,
  overflowing fixed-size buffers) is a distinct outcome (`none`, `fault`); the
  theorems show it does not happen under the stated preconditions.
* **Loops** (`while`) are fuelled functions; the theorems give an explicit
  bound on the fuel for which they finish, so termination is part of them.
* **Concurrency.** Kernels with races are small-step transition systems, one
  step per atomic operation, threads interleaved arbitrarily (sequential
  consistency; the acquire/release fences in the code are assumed to give this
  for the locations they protect; for the construction and union-find this is a
  theorem about weaker memory, C78 and C79; in C22, C26 and what is built on them, plain loads
  that race return any value coherence allows). Theorems quantify over all reachable states
  or all schedules. Kernels without races are modelled as maps.
* **Kokkos/MPI/std** primitives (`parallel_scan`, `sort_by_key`, `MPI_Alltoallv`
  ...) are modelled by their specification.
* **Processes** execute an exchange of messages and a collective operation together,
  kernels and copies when they are launched. That other interleavings of processes and messages
  give the same results is C97, that other times of execution do is C96.

## Properties and plan

| id | what is modelled | how it is proved |
|----|------------------|------------------|
| C01 | memory image of the BVH, spatial traversal loop, end-to-end with the construction | layout relation memory <-> inductive tree; induction over the tree gives the visited sequence |
| C02 | `GenerateHierarchy::operator()` as a transition system with CAS on ranges | block-partition invariant over all interleavings; decreasing measure; final state satisfies the layout relation |
| C03 | `delta` on 32/64-bit codes | adjacent keys differ when the top bit is unused; negation with witness for full-width codes |
| C04 | traversal with a stateful callback that can stop | prefix theorem |
| C05 | nearest traversal with heap and stack | invariant on heap/stack/visited set |
| C06 | same with stack capacity as outcome | partial: no overflow up to 129 values, for short codes, and for long codes shared by few values (three with the 63 bits of three dimensions); negation: 130 values overflow |
| C07 | ordered spatial traversal | negations with witnesses for the miss case and for the overflow of the buffer; partial: hits in order and at most one miss, whenever the buffer is large enough (at most 65 values, or at most 130 nodes met in a tree of any size) |
| C08 | half traversal loop started at the rope of each leaf | visited set from leaf i = leaves after i |
| C09 | `queryImpl`, `InsertGenerator`, offsets, two passes | for every interleaving of insert events |
| C10 | neighbour list callbacks, counters, scan, fill, expand | counting/permutation over every order of events |
| C11 | tiling loops, with the single precision tile count and the `int` number of teams | bijection between (tile, local) and global indices; negation above 2^24 and for 2^31 pairs of tiles; error bounds of the tile count for any size |
| C12 | nearest brute force loop | negation by witness, partial |
| C13 | heap array operations | heap invariant + permutation |
| C14 | `nth_element` loop | invariant |
| C15 | binary search loops | invariant |
| C16 | `expandBitsBy` on BitVec, quantisation with rounding | per-bit characterisation |
| C17 | permutation loops | function composition |
| C18 | union-find transition system | partition invariant over all interleavings |
| C19, C20 | FDBSCAN kernels (core points, main kernel, finalisation, relabelling) on the modelled tree | on top of C08 and C18 |
| C21 | grid index/box; the whole FDBSCAN-DenseBox pipeline | negation by witness, partial under the half-open condition |
| C22 | Boruvka: all kernels of an iteration, racing label updates included | cut property / exchange argument, every interleaving |
| C23 | host union-find dendrogram | induction over edges |
| C24, C25 | BitVec encoding; comparison | algebra |
| C26 | findParents, reduceLabels transition systems, racing loads may return old values | invariant |
| C27 | Distributor layout and exchange | permutation and counting |
| C28, C29 | forward / query / communicate back / filter | refinement to the global query |
| C30 | merge pairs pipeline | negation by witness, partial soundness |
| C31-C34 | box, sphere, kdop algorithms | order/field algebra |
| C35 | SAT test | negation by witness; partial: exact if the wrong test gives the right answer. Helly: a smallest contradictory set of the nine inequalities for a common point names one of the thirteen axes |
| C36 | slab test | field algebra, signed zero witness; exact description of the results with negative zeros: a negative zero makes the range of its dimension (inf,inf), (inf,-inf) or (-inf,-inf), and another dimension has a finite range |
| C37-C39 | segment, triangle, tetrahedron | field algebra |
| C40 | ellipsoid/box | negation by witness, partial |
| C41 | polynomial basis, radial functions, moment matrix, decomposition, coefficients of MLS | matrix algebra; error bound in the tolerance, limit for tolerance 0 |
| C42 | ordered offsets | induction |
| C43 | dense/sparse reordering with counters | permutation for every schedule |
| C44 | closestFactors | induction |
| C45 | size 0/1 paths | case analysis |
| C46 | mutual reachability, core distances, MST for every k | order algebra on top of C22 |
| C47 | ray/sphere overlap | real algebra |
| C48 | the distributed DBSCAN function end to end (ghosts, local clustering as a black box with the specification of C19, merge, relabelling) | negation with witness; soundness; partial completeness |
| C49 | in-place compaction of the labels of ghosts, thread by thread | race exhibited; partial for schedules without it |
| C50 | two-sided Jacobi iteration of `symmetricSVDKernel` | off-diagonal norm decreases; orthogonality invariant |
| C51 | row echelon form and restriction of the basis for degenerate source sets | negation with witness; partial; independence of the kept rows when the pivot search never falls back to row 0 (invariant over the elimination) |
| C52, C53 | C01 and C05 instantiated with codes, boxes and geometric tests of the library | composition; boxes on trees of triangles: the test on a leaf implies that the boxes meet, hence the traversal is exact for the test (defect of C35 included) |
| C54 | MovingLeastSquares: search, rows, coefficients, at all targets | composition with C05 and C41 |
| C55-C57 | dbscan, MinimumSpanningTree, neighbour lists of points for the Euclidean distance | composition |
| C58, C59 | ray/triangle and segment/triangle, coplanar branch included, tolerances as parameters | linear algebra of the shear; negations by witness |
| C60 | `hdbscan`: both implementations; mode HDBSCAN of Boruvka with all its kernels, the chains of edges and the reordering | invariant of the levels of contraction, single linkage via C22, every interleaving and every sort |
| C61, C62 | C28 and C29 instantiated with codes, boxes, geometric tests and the expansion by the radius of the second phase | composition |
| C63 | C09 instantiated with the scenes of C52 and C53 | composition |
| C64, C65 | distances and tests of points, boxes and balls in floating-point arithmetic | rounded distances to a box are monotone under inclusion, also with infinities, so C01 and C05 apply |
| C66 | the same, relative error of each operation | induction over the accumulation of the squared distance |
| C67, C68 | dbscan, neighbour lists, MinimumSpanningTree, hdbscan on computed distances; bit patterns of `float` | composition; the bit pattern is a strictly monotone function of the number |
| C69, C70 | distributed queries on computed distances; `nextafter` by specification | composition; the next number after the rounded sum of radius and distance reaches every value at that computed distance, because gaps between numbers do not decrease; false for boxes as queries, where it holds if no computed distance is smaller than the exact distance along an axis (`distributed_nearest_box_partial`), in particular for small integer coordinates (`distributed_nearest_box_integers_partial`: rounding is monotone and the difference along an axis and its square are numbers of the type) |
| C71 | the three queries with a ray on scenes of boxes and triangles | C36 and C58 for the tests, C01 (also for predicates that are not monotone), C05 and C07 for the traversals |
| C72 | brute force on scenes | composition of C11, C12 with C52, C53, C64, C65; distances of the k nearest are determined by the distances of all values |
| C73 | distributed DBSCAN on computed distances, every process clusters by the model of FDBSCAN | composition of C48 with C67; holds where the forwarding radius reaches two steps of eps, which rounding can prevent |
| C74 | queries of a batch as programs of single reads and writes of one array; offsets in 32 bits | general theorem on threads with disjoint parts of an array; the heap algorithms on a part of the array refine those on lists; false if the numbers of neighbours add up to 2^31 |
| C75 | the loop with its stack, the statements written for Graphviz | induction over the tree; the numbers of the nodes are all different because the memory determines the tree; false for trees that turn right 64 times and for trees of at most one value |
| C76 | the code of C09 with counters and offsets of 32 bits | simulation of the code with natural numbers; false if there are 2^31 results or more: with 2^32 results the query returns none, without an error |
| C77 | the grid with every operation rounded, and FDBSCAN-DenseBox (C21) on it with the distances of C66 | error bounds for quotients and corners; partial: the points are clear of the rounding of distances and grid. False in general: far points are joined, a cluster is split |
| C78 | the construction of C02 on a memory where every thread has its own view: reads of unordered locations return anything; the exchange releases, the fence acquires (both can be switched off) | simulation: every location a thread reads is in its view, so the run equals an interleaved run; with either guarantee missing, an execution whose tree loses a value |
| C79 | union-find and the finalisation of dbscan (FDBSCAN and FDBSCAN-DenseBox) with loads that return any earlier value of the label and stores that are ordered arbitrarily; only the exchange is atomic. Loads do not return values stored later in the execution | every value ever held by a label is in the same tree and not larger, and a label that was seen to be no root stays none; the invariant of C18 follows for the newest values |
| C80 | a batch of spatial queries as threads that visit one node per step and share the data of the callback; a call of the callback is one atomic step; the queries in the order of C17's permutation or unsorted | each thread's remaining steps are those of the sequential loop of C01, so its calls are a prefix of that loop's; the log of all calls splits into the logs of the queries |
| C81 | k-DOPs with rounded, possibly infinite projections as bounding volumes of the tree of C01; inverted boxes are excluded | the rounded projection is monotone in every product, so corners of a box bound its points also after rounding; k-DOPs reachable by expansion form a semilattice with the default one as least element |
| C82 | two executions of C22's model | both results consist of edges that are first in a cut for the same total order of the edges; such spanning trees are equal. For different trees over the same points: threshold functions of the weights are monotone, so minimality gives equal numbers of edges above each threshold |
| C83 | `bounds()` of the trees of C01, of C78 (weak memory), of C43 (distributed) and the reduction of `BruteForce` over any semilattice of volumes; Euclidean boxes as an instance. The sum of the sizes with overflow of `int` as a distinct outcome | the volume of the root is a sup over the leaves, which are all the values; induction over the arrangement of a reduction. `size()` is partial: the sum is computed in `int` |
| C84 | the radial basis functions and weights of C41 over ℝ | each function is `(1 - s)^m q(s)` with `s = x` or `s = √x`; the derivative is `-(1-s)^(m-1)` times a polynomial without negative coefficients; `buhmann2` by the sign of its derivative, which contains a logarithm |
| C85 | the values are pairs of a point and an index of `w` bits, the predicates those of `make_intersects` and `make_nearest` | C01, C05 and C09 for these values; `BitVec.ofNat w` is injective below `2^w`; likewise in floating-point arithmetic with C64 and C65 |
| C86 | two executions of C60's model | in any binary dendrogram the number of mergers up to a height plus the number of single-linkage clusters is the number of points (count the children of the low mergers; the nodes that are not children are the tops of the clusters); the clusters are those of C60's specification |
| C87 | the ray-box test with rounded operations, infinities and a NaN of either sign | the test is monotone in the box where no difference overflows along an axis with a zero of the direction; volumes of a built tree stay in any box that holds all leaves, so the traversal theorems apply; two roundings per parameter for the accuracy; negation by witness in `float` |
| C88 | executions of C55's, C60's, C67's and C68's models on the same points | the core distance is at most `eps` exactly for the core points, so one step of single linkage for mutual reachability is one step of a chain of core points; monotonicity of both notions in the radius |
| C89 | trees of values of any kind but spheres, with any function as the computed test or distance of a value; `intersects(Point, Triangle)` with rounded operations | the boxes are exact, and monotonicity is only needed between boxes (C64); a generalisation of the nearest traversal to distances of volumes that exceed those of the values inside; the box-triangle test starts with the test of the boxes; a point of type `float` outside the box of a triangle that the point-triangle test accepts |
| C90 | two executions of the models of C22, C60 and C67 on points related by a renumbering that preserves the distances | core points, chains, core distances, spanning trees and single linkage are carried over by the renumbering; the heights are determined by the numbers of clusters at each height |
| C91 | the steps of the construction and the loop of a query with the list of the `int`s each computes; a value outside of 32 bits is a fault; for the other traversals, nodes whose access overflows are removed from the memory | by the invariant of C02 all values are between -1 and 2n-1; beyond 2^30 values the last internal node can only be written after its number, 2n-2, was computed |
| C92 | points and boxes with coordinates in the extended reals or NaN; minima, maxima, comparisons, differences and distances as in IEEE arithmetic with any monotone rounding; the nearest traversal with distances that can be NaN | the boxes of the tree are never NaN; a predicate that accepts a value without NaN accepts the boxes around it, so C01 for arbitrary predicates applies; in the nearest traversal NaN acts as infinity |
| C93 | FDBSCAN (model of C10) on the tree over points with NaN and infinite coordinates (model of C92); the neighbours are the pairs which the code's test accepts | the relation of neighbours is symmetric, and reflexive on every point that has a neighbour, which is all that the proof of C10 needs; a finite epsilon makes every other point isolated; the finite points are embedded by an increasing map which preserves core points, chains and least labels |
| C94 | the models of C22, C46, C60 and C68 with infinite weights | the invariant of the iterations without any assumption on the weights: a component with an edge of finite weight to the rest chooses the least one; a component without keeps the default edge, whose target is 2^31-1, and its label is read out of bounds; a set of points without finite edges to the rest is found by induction on the steps |
| C95 | the Distributor of C27 with `int` offsets and byte counts reduced modulo 2^32; `communicateMergePairs` with scaled `int` counts and displacements | the exact content of the imports for all sizes: each message is cut to the lowest 32 bits of its size; the receives of C27 in any order into fresh memory; equality with what was sent if and only if all messages have less than 2^31 bytes |
| C96 | host programs that launch operations with arbitrary effects in queues, wait for queues, execute operations themselves and branch on memory; an operation of a queue is executed at any time after its launch, in the order of the queue; messages have queues of their own | programs in which no operation conflicts with one that may still be in another queue are deterministic (invariant over executions, termination, progress); each function is shown to be such a program, the three that are not have explicit executions with the wrong result |
| C97 | each process runs its own program (enter and leave collective operations, post receives and sends, wait); steps are actions of one process and the matching of the oldest message of a channel with the oldest receive for it | steps of different processes and channels commute (diamond property), so one execution that ends shows that all end in the same state; this execution goes operation by operation and is the one the models of C28, C29 and C48 describe. The message of the user is a concrete execution evaluated by the kernel, and again the diamond property |
| C98 | C97's processes with any number of communicators that have nothing to do with each other; programs of the user with operations and calls, translated in two ways: a call is one collective operation (`UProg.atomic`), or the operations of the library on its own communicator (`UProg.real`) | steps commute as in C97; forward simulation: when the first process leaves a call of the atomic program, the library is executed operation by operation on all processes (C97's execution), otherwise the steps correspond. One execution that ends shows that all do |
| C99 | C50's iteration on floating-point numbers with infinities and NaN, every operation rounded (relative error and underflow error), products and sums contracted or not | lexicographic measure: finite entries of the diagonal and entries that are not NaN; infinite entries whose rows are NaN otherwise; sum of the squares of the finite entries away from the diagonal, which a rotation decreases by more than the roundings of all rotations of a row increase it |
| C100 | the model of C99 on finite entries; formats with a range within which rounding gives finite numbers | backward error analysis: one iteration is an exact rotation up to 110 u times the Frobenius norm, for A and for U; the errors add up over the iterations since rotations keep the norm; the sum of squares away from the diagonal decreases by a factor 1 - 1/n^2 (C99), which bounds the number of iterations |
| C101 | the models of C41 and C84, the tolerance is 2^-23 for float | bound: the least weight is the value of the function at 10/11, polynomials in the unit ball are bounded by their coefficients; negation by witness: entries of the moment matrix below the tolerance are dropped, the interpolation is the weighted mean |
| C102 | variables, control blocks with counters and deleters, a trace of the calls of MPI; `std::shared_ptr` by its specification; undefined behaviour is an outcome | invariant: the counter of a block is the number of variables that own it, a communicator has been freed iff its counter is zero; simulation of the user's view |
| C103 | (balls: `Fp/CurveBalls.lean`, k-DOPs: `Fp/CurveKdops.lean`, exact conditions: `Fp/CurveExact.lean`) centroid, `translateAndScale` and the Morton codes with rounded operations, infinities and NaN; a conversion of NaN or of a number out of range to an integer is undefined | every function on the way is monotone on numbers and strict in NaN; NaN arises exactly as infinity/infinity or 0/0 in `translateAndScale`. Finding: building a tree of finite points whose extent overflows (for `float`: more than about 3.4e38 apart) is undefined, exactly then; so is sorting far-away predicates for a query of an empty tree |
| C104 | `isValid` and `equals` on coordinates that are numbers, infinities or NaN, differences rounded; `equals` of rays with signed zeros | exact characterisations. Findings: `isValid` rejects boxes that are flat along an axis (the bounding box of a point) and boxes whose extent overflows; rays that compare equal can differ in whether they hit a box, as the comparison does not see signs of zeros |
| C105 | the loop bodies and the joins of the reductions, on every tree of partial results | induction on the tree: a partial result is the least of the identity of the reduction and of the entries seen. Finding: the identity is the largest finite value, so a view of infinities or NaN has a finite minimum (not used in the library, which reduces integers) |
| C106 | the bounds, the grid and the cells of points whose coordinates are numbers, infinities or NaN, differences and quotients rounded, undefined conversions to integers as an outcome of their own | exact condition: cells are computed only if all coordinates are finite, and then they are those of the model of C77. Finding: a NaN is not seen by the checks of the grid and its conversion to `int` is undefined behaviour; an infinite coordinate makes the size of the grid undefined before any check |
| C107 | the blocks `#ifndef NDEBUG` of the moving least squares kernel, on the model of C41 and C51 (exact arithmetic with the tolerance) | negation by witness: two close sources on the line, whose moment matrix has an eigenvalue below the tolerance but an echelon form without a row below it; partial: sources that determine the polynomials, and sources all at the target. Also seen when modelling: the last check reads the diagonal of the orthogonal matrix, not that of the eigenvalues its message is about |
| C108 | `benchmarks/cluster/ArborX_DBSCANVerification.hpp`: both versions, with the places in the view, the removal of border points, the search with its stack and the comparison of the two counts; the queries by the rows they return in any order, which the hierarchy of C01 (`found_tree`) and the distributed tree of C28 (`found_distributed`) provide | invariant of the search (marked points are a union of components of core points, the stack is within the component), counting argument for the labels; equivalence with the specification of C19 and C20; composed with C19 and C20. Distributed: equivalence with the four local conditions, negation of the full statement by witness; on the labels that the distributed `dbscan` of C48 returns it is exact, because those never join clusters (`verify_distributed_dbscan`) |
| C109 | the tests and distances of C33 and C39 for all tetrahedra, on the trees of C52 and C53 (exact arithmetic) | the products of signs are zero for flat tetrahedra, hence the test is true and the distance zero for all points of space; what the queries return follows from the theorems for arbitrary predicates and distances; negation by witness |
| C110 | the queries of C92 (`Fp/NanModel.lean`), nothing assumed of the order of corners; `Box{}` with the largest number of the type | expansion is a minimum and a maximum, so tests with boxes and points are monotone whatever the order of the corners; distances to `Box{}` overflow, so that its distance is infinite or NaN and the theorems for such distances apply; negation by witness for balls and for a lone value |

Later properties are described in `properties.jsonl` and in the header of the module
that proves them.

## Deviations of the code from the properties

Each is a theorem with a concrete witness in the model, next to a `_partial` theorem
for the inputs where the property holds. Paths are relative to `src/`.

| where | what happens | theorem |
|-------|--------------|---------|
| `spatial/detail/ArborX_TreeConstruction.hpp`, codes that use all bits | the ranges' sentinel equals a valid distance and construction does not finish | `Traversal.full_width_codes_hang` |
| Morton codes in one dimension | are such codes | `Morton.morton64_1d_faults` |
| `spatial/detail/ArborX_TreeTraversal.hpp`, nearest: `stack[64]` | overflows for deep trees (130 values with 64-bit codes) | `Nearest.stack_overflow`, `Boruvka.mst_stack_overflow` |
| same, ordered spatial | calls back on a value that does not match; the 64-entry buffer overflows for 66 values | `Ordered.ordered_spurious_call`, `Ordered.ordered_buffer_overflow` |
| same, nearest on a tree of one value | returns it although it is at infinite distance, e.g. a box that the ray misses | `Euclid.ray_nearest_single` |
| same, per-thread query on 0 or 1 values | reads outside the tree | `Traversal.per_thread_small_faults` |
| `spatial/detail/ArborX_BruteForceImpl.hpp`, nearest | the radius is not set after the first k values; a farther value replaces a nearer one | `BruteForce.brute_force_nearest_wrong` |
| same, spatial | tile count in single precision loses values above 2^24 | `BruteForce.brute_force_spatial_wrong` |
| same, spatial | the number of teams overflows an `int` for 2^31 pairs of tiles, e.g. 2^24 values and queries in tiles of 256 | `BruteForce.brute_force_teams_overflow` |
| `cluster/detail/ArborX_CartesianGrid.hpp` | points on the upper face alias another cell, with wrong labels as effect; cell coordinates overflow `int` | `DenseBox.grid_aliasing`, `grid_wrong_box`, `densebox_face_defect`, `grid_int_overflow` |
| same, in `float` | for points on one side far from the origin of the grid the accepted grid puts points farther apart than eps into a dense cell, and computes boxes that miss the points of their cell: noise becomes a cluster, a cluster is split | `Fp.densebox_float_joins`, `Fp.densebox_float_splits` |
| `cluster/ArborX_Dendrogram.hpp` | no edges: store out of bounds | `Dendrogram.dendrogram_no_edges` |
| `cluster/ArborX_MinimumSpanningTree.hpp` (ties are broken by the positions in the sorted order) | the edges, not the weights, depend on how `sortByKey`, which is not stable, orders points with the same Morton code | `Boruvka.mst_sort_dependent` |
| `cluster/detail/ArborX_BoruvkaHelpers.hpp` 314-326, 415-428 | points not connected by finite distances (in `float`, two groups 2^64 apart in a coordinate): a component keeps the default edge and `labels(2^31-1)` is read | `Boruvka.mst_disconnected`, `Fp.far_apart_fault` |
| `distributed/detail/ArborX_Distributor.hpp` 385-389, 402-404 | a `size_t` number of bytes is passed to MPI as an `int`: messages of 2^31 bytes and more fail or are cut, silently lost for 2^32 bytes | `Distributed.distributor_bytes_iff`, `Distributed.distributor_loses` |
| `cluster/detail/ArborX_DistributedDBSCANHelpers.hpp` 581-583 | counts and displacements of the merge pairs are scaled to bytes in an `int`: pairs are lost from 2^27 pairs in total on | `DistDbscan.gather_loses` |
| `spatial/detail/ArborX_TreeConstruction.hpp` 64-68, 108-113 | the volume of the tree is copied to the host asynchronously and never fenced; `bounds()` and queries with sorted predicates read it (for queries this only affects the order of execution) | `Async.bounds_unfenced`, `Async.bounds_unfenced_race` |
| `distributed/ArborX_DistributedTree.hpp` 186, 205-217 | the volume of the bottom tree is read without a fence, and after a move that leaves the pending copy with a destroyed temporary: a process may be missing from the top tree and its values from all results | `Async.distributed_tree_stale`, `Async.stale_rank_missed` (a fence before the move repairs it: `Async.distributed_tree_fenced`) |
| `cluster/detail/ArborX_DistributedDBSCANHelpers.hpp` 157-161 | an asynchronous copy reads a local `std::vector` that is destroyed without a fence | `Async.labels_dangling` (repair: `Async.labels_fenced`) |
| `cluster/ArborX_DistributedDBSCAN.hpp` 91-202, `distributed/detail/ArborX_Distributor.hpp` 391, 403 | the communicator of the user is not duplicated (as the distributed tree does to isolate its messages): a message of the user with tag 123 that is under way is received by the library | `Mpi.user_message_defect` |
| `geometry/algorithms/ArborX_Intersects.hpp` 278-279 | box-triangle reads component 1 instead of 0 in one of nine axes | `Geometry.intersects_box_triangle_wrong`, `_wrong_positive` |
| same, ellipsoid-box in 3D | clamps the two parameters of a face independently | `Geometry.intersects_ellipsoid_box_3d_wrong` |
| same, segment-triangle | a coplanar segment that ends inside the triangle is not found | `Geometry.segment_triangle_defect` |
| `geometry/ArborX_Ray.hpp`, ray-box | direction component -0.0 | `Geometry.intersects_ray_box_negative_zero` |
| same, ray-box | coordinates whose differences overflow: zero times infinity is a NaN, and a ray starting inside the box misses it | `Fp.ray_query_nan` |
| same, ray-triangle | absolute tolerance: a small triangle far away is reported although the ray passes it | `Geometry.ray_triangle_defect_small` |
| same, ray-triangle | a coplanar ray that starts on an edge can miss the triangle | `Geometry.ray_triangle_defect_edge` |
| `geometry/algorithms/ArborX_ClosestPoint.hpp` | triangle with a = b: 0/0 | `Geometry.closest_point_triangle_nan` |
| `distributed/`, nearest without callback | aborts (with assertions) on a tree without values | `Distributed.distributed_nearest_empty_aborts` |
| `cluster/detail/ArborX_DistributedDBSCANHelpers.hpp`, merge | connected clusters can keep different labels | `DistDbscan.merge_loses_labels`, `distributed_dbscan_defect` |
| same, in-place compaction | a label can be overwritten before it is read by another thread | `DistDbscan.compress_race` |
| nearest query in `float` | if the squared distance of a value overflows the value is never found, so fewer than min(k, n) are returned | `Fp.nearest_overflow` |
| spheres as values in `float` | their boxes are rounded: a tree hides a sphere which the test on the sphere accepts, and which a tree on this sphere alone returns | `Fp.sphere_values_hidden` |
| triangles as values in `float`, point queries | the point-triangle test accepts a point outside the box of the triangle: a tree on this triangle alone returns it, with a second triangle inside the first nothing is returned | `Fp.triangle_values_hidden` |
| `distributed/detail/ArborX_DistributedTreeNearestHelpers.hpp`, nearest with a box in `float` | the box is expanded by a distance that was rounded down, and one unit of the sum does not make up for it: the second phase asks no process and the value found in the first phase is lost | `Fp.box_query_lost` |
| `cluster/ArborX_DistributedDBSCAN.hpp` 74-77, `float` | points are forwarded within `nextafter(2 eps)`; two computed distances of at most eps can add up to more, and a border point is then labelled as noise in every execution | `Fp.distributed_dbscan_float_defect` |
| `spatial/detail/ArborX_NearestBufferProvider.hpp` | offsets are of type `int`: if the k of all queries add up to 2^31 or more they overflow, and queries write outside of the buffer | `Nearest.nearest_batch_overflow` |
| `spatial/detail/ArborX_CrsGraphWrapperImpl.hpp` | counters and offsets are of type `int`: 65536 queries that all find the same 65536 values return no result at all, without an error | `Crs.Int32.crs_results_lost`, `crs_spatial_lost` |
| `spatial/detail/ArborX_TreeConstruction.hpp`, `ArborX_HappyTreeFriends.hpp` | node numbers are of type `int`: with more than 2^30 values the construction overflows; with assertions a query on exactly 2^30 values does | `BVH.int_construction_overflow`, `BVH.int_query_debug_overflow` |
| values with NaN coordinates, box queries | the test accepts a NaN coordinate and the boxes of the tree ignore it: whether the value is returned depends on the other values | `Fp.nan_value_depends` |
| `distributed/ArborX_DistributedTree.hpp` 248 | `reduce(space, _bottom_tree_sizes, 0)` sums the sizes in the type of its initial value, `int` (this is how `Kokkos::Experimental::reduce` is specified): with 2^31 values or more on all processes it overflows, and `empty()`, on which the queries rely, with it. C43-C47 take the exact sum | `Distributed.distributed_size_overflow` |
| `spatial/detail/ArborX_TreeVisualization.hpp` | the stack has 64 entries; with 65 values it can overflow | `Viz.visit_stack_overflow` |
| `interpolation/`, row echelon form | pivot search starts at row 0; dependent monomials can be kept | `Interp.rowEchelon_defect` |
| `misc/ArborX_SymmetricSVD.hpp` 166-172 | the tolerance of the decomposition is absolute: if the weights are small (`Wendland<6>` in `float`, sources at about the same distance from the target) the moment matrix is taken for diagonal, and the interpolation of degree 1 is the mean of the sources, which is wrong for linear functions | `Interp.mls_defect_tolerance`, `Fp.svd_float_defect_tolerance` |
| `interpolation/detail/ArborX_InterpDetailsMovingLeastSquaresCoefficients.hpp` 151-163 | the assertion that the number of small eigenvalues equals the number of small rows of the echelon form fails for some positions of the sources, e.g. two sources at 10 and 10 - 11/650 on the line, target 0, degree 1, `Wendland<0>`, `float` | `Interp.mls_check_fails` |
| `geometry/algorithms/ArborX_TranslateAndScale.hpp` 26-37 | a ball of infinite radius among the values, or one whose lower end overflows, makes the positions of all values on the space-filling curve undefined (infinity divided by infinity, converted to an integer) | C103 `infinite_ball_positions` |
| `spatial/detail/ArborX_TreeTraversal.hpp` 168-178 | a tree whose only value is a default-constructed box returns it as nearest value, which no larger tree does | C110 `lone_empty_box_near` |
| `geometry/algorithms/ArborX_ClosestPoint.hpp` 48-66 | the distance of a box whose corners are the wrong way round is smaller than that of the boxes around it, so queries with balls (and for nearest values) miss it although the test accepts it | C110 `inverted_box_missed` |
| `geometry/algorithms/ArborX_Intersects.hpp` 384-393, `ArborX_Distance.hpp` 145-157 | a tetrahedron whose vertices are in a plane contains every point of space and is at distance zero of it; queries report it for points far away | C109 `flat_tetrahedron_reported`, `intersects_point_tetrahedron_exact`, `distance_point_tetrahedron_exact` |
| `benchmarks/cluster/ArborX_DBSCANVerification.hpp` 529-535 (test tool) | the distributed verification accepts labels that give separate clusters the same label, as it does not check it (FIXME in the code) | C108 `verifyDistributed_wrong` |
| `benchmarks/cluster/ArborX_DBSCANVerification.hpp` 399-410, 511-520 (test tool) | a point that its own query does not find, such as one with a NaN, makes the verification access the view at place -1 | C108 `verify_fault` |

Read in the code but not stated as theorems:

* the construction has `Kokkos::load_fence()` on the side of the reader
  (`ArborX_TreeConstruction.hpp` 265, 289) but no `store_fence()` before the
  `atomic_compare_exchange` that publishes the node. It relies on the exchange itself to
  release. The sources of Kokkos are not at hand, so this is an assumption on the primitive;
  `Traversal.weak_without_order` shows it is needed;
* a debug check of the pseudo-inverse tests `svd_unit(i,i)` where `svd_diag(i)` seems meant;
* the fallback policy of MLS allocates team scratch where thread scratch is used;
* the constructor of `CartesianGrid` from an array asserts `_h[d] > 0` before assigning `_h[d]`;
* a nearest query with negative k is a precondition violation; a tree with one value returns
  it even at infinite distance (this one is in `nearest_query_single`);
* the second phase of a distributed nearest query with k = 0 reads an unset radius;
* barycentric coordinates with respect to degenerate tetrahedra divide by zero (`barycentric_tetrahedron_exact`).

## Modelled

| code | modules |
|------|---------|
| `ArborX_LinearBVH.hpp`, `TreeConstruction`, `TreeNode`, `Node`, `HappyTreeFriends` | Tree, Layout, Construction, BVH |
| `TreeTraversal` (spatial, nearest, ordered), `HalfTraversal`, per-thread interface | Traversal, Nearest, Ordered |
| `PriorityQueue`, `Heap`, `Stack`; `KokkosExtStdAlgorithms` (nth_element, bounds), sort, permutations | Heap, StdAlg, Perm |
| `NearestBufferProvider`, `Containers`; `TreeVisualization` | Shared, Nearest/Batch, BruteForce/Batch; Viz |
| `CrsGraphWrapperImpl`, insert generators, buffer policies | Crs |
| `BruteForce` | BruteForce |
| `MortonCode`, space filling curves | Morton, Float |
| `NeighborList` | Neighbor |
| `DBSCAN` (FDBSCAN, DenseBox), `UnionFind`, `CartesianGrid` | Dbscan, DenseBox, UnionFind |
| `MinimumSpanningTree`, `Dendrogram`, `HDBSCAN`, `DirectedEdge`, `WeightedEdge`, tree labels | Boruvka, Mst, Labels, Graph, Dendrogram, Hdbscan |
| `DistributedTree`, `Distributor`, distributed DBSCAN, `closestFactors` | Distributed, DistDbscan |
| the same functions, process by process with messages in any order, also among the communication of the user | Mpi |
| asynchronous execution of kernels, copies and messages: CSR queries, the exchange, spanning trees, dendrograms, the volume of a tree, the gathering of boxes and merge pairs | Async |
| `geometry/` | Geometry |
| `interpolation/` | Interp |
| compositions for points and geometries | Euclid |
| distances and tests in floating-point arithmetic | Fp |

Simplifications which are not visible in the statements: the compaction of C49 takes its
total from the first pass; the local clustering of C48 is a black box with the specification
proved in C19 (C73 takes the model of FDBSCAN itself); the callback of the MLS search does its two writes in one step; the
sanity checks which only throw on wrong arguments are preconditions.

## Not modelled

Kokkos back ends, memory spaces (except in C96), MPI failure, floating-point rounding (except
in C16, C30, C64-C70, C85, C87, C89, C92-C94, C103, C104, C106 and where said), NaN (except in C87, C92, C93, C103-C106), weak memory (except in C78, C79, C22, C26), template dispatch and access traits, profiling regions,
exceptions other than those named in the theorems. Of `BoruvkaMode::HDBSCAN`, `_chain_offsets` and
`_chain_levels`, which are computed and not read.

## Tests against wrong programs

`seeded/LOG.jsonl` records edits of the model of the kind a bug would make, the
property each breaks and the theorems whose proofs then fail.
