{
 "claims": [
  {
   "property": "C01",
   "status": "proved",
   "theorems": [
    "ArborX.Traversal.spatial_query_exact",
    "ArborX.Traversal.spatial_query",
    "ArborX.Traversal.spatial_query_any",
    "ArborX.BVH.build_wellFormed"
   ],
   "note": "end to end: constructor under every schedule, then one spatial query"
  },
  {
   "property": "C02",
   "status": "proved",
   "theorems": [
    "ArborX.Construction.no_fault",
    "ArborX.Construction.wait_free",
    "ArborX.Construction.exists_complete",
    "ArborX.Construction.construction_correct",
    "ArborX.Construction.construction_cartesian",
    "ArborX.Construction.memory_schedule_independent",
    "ArborX.BVH.build_schedule_independent"
   ],
   "note": "all interleavings of the construction threads"
  },
  {
   "property": "C03",
   "status": "partial",
   "theorems": [
    "ArborX.Traversal.construction_every_code_partial",
    "ArborX.Construction.validKeys_of_sorted",
    "ArborX.Traversal.full_width_codes_hang",
    "ArborX.Morton.morton64_valid",
    "ArborX.Morton.morton32_valid",
    "ArborX.Morton.morton64_1d_faults"
   ],
   "note": "positive for codes without top bit; the full statement is false for full-width codes (defect, witness proved), and Morton codes of one-dimensional points are such codes (defect, morton64_1d_faults: every pair of distinct points)"
  },
  {
   "property": "C04",
   "status": "proved",
   "theorems": [
    "ArborX.Traversal.spatial_query"
   ],
   "note": "callback is an arbitrary function of its history"
  },
  {
   "property": "C05",
   "status": "proved",
   "theorems": [
    "ArborX.Nearest.nearest_query",
    "ArborX.Nearest.nearest_query_any",
    "ArborX.Nearest.nearest_query_single",
    "ArborX.Nearest.nearest_query_finite",
    "ArborX.Nearest.IsKNearest.length"
   ],
   "note": "end to end; a single value is returned even at infinite distance"
  },
  {
   "property": "C06",
   "status": "partial",
   "theorems": [
    "ArborX.Nearest.no_stack_overflow_partial",
    "ArborX.Nearest.stack_suffices_codes",
    "ArborX.Nearest.stack_suffices_small",
    "ArborX.Nearest.stack_suffices_groups",
    "ArborX.Construction.height_bound",
    "ArborX.Nearest.stack_overflow"
   ],
   "note": "false for 64-bit codes (130 values overflow the stack, witness proved); proved up to 129 values, for short codes, and for codes shared by few values (63 bits: three values)"
  },
  {
   "property": "C07",
   "status": "partial",
   "theorems": [
    "ArborX.Ordered.ordered_query_partial",
    "ArborX.Ordered.ordered_query_all_hit",
    "ArborX.Ordered.ordered_small",
    "ArborX.Ordered.ordered_few_hits",
    "ArborX.Ordered.ordered_spurious_call",
    "ArborX.Ordered.ordered_buffer_overflow"
   ],
   "note": "The property is false of the code: when the heap is empty and both children are missed the callback is called on a missed value (ordered_spurious_call), and the 64-entry buffer overflows for 66 values (ordered_buffer_overflow). Proved: all hits in order, then at most one miss, with early exit, whenever no more than 65 disjoint subtrees of the tree are at finite distance (BufferFits): so for at most 65 values whatever the query (ordered_small), and on trees of any size for queries that meet at most 130 nodes (ordered_few_hits)."
  },
  {
   "property": "C08",
   "status": "proved",
   "theorems": [
    "ArborX.Traversal.half_traversal_exact"
   ],
   "note": "as unordered pairs, with multiplicity"
  },
  {
   "property": "C09",
   "status": "proved",
   "theorems": [
    "ArborX.Crs.crs_query",
    "ArborX.Crs.crs_query_bvh",
    "ArborX.Crs.crs_spatial",
    "ArborX.Crs.crs_nearest"
   ],
   "note": "every predicate kind, buffer size, permutation, number of threads and pair of fair schedules; throws exactly on a hard overflow; combined with C01/C02/C05 for the hierarchy"
  },
  {
   "property": "C10",
   "status": "proved",
   "theorems": [
    "ArborX.Neighbor.half_neighbor_list",
    "ArborX.Neighbor.full_neighbor_list",
    "ArborX.Neighbor.expand_half_to_full",
    "ArborX.Neighbor.half_terminates",
    "ArborX.Neighbor.full_terminates",
    "ArborX.Neighbor.expand_terminates"
   ],
   "note": "every point set, symmetric relation respected by the volumes, and every schedule of all kernels; termination for every fair schedule"
  },
  {
   "property": "C100",
   "status": "proved",
   "theorems": [
    "ArborX.Fp.svd_float_accurate",
    "ArborX.Fp.svd_float64_accurate",
    "ArborX.Fp.svd_float32_accurate",
    "ArborX.Fp.Ieee.wide"
   ],
   "note": "worst-case constants; the bound for float is weak since it assumes that all roundings of all iterations add up; the tolerance is absolute, so the bound says little about matrices with small entries"
  },
  {
   "property": "C101",
   "status": "partial",
   "theorems": [
    "ArborX.Interp.mls_error_positions_partial",
    "ArborX.Interp.mls_defect_tolerance",
    "ArborX.Fp.svd_float_defect_tolerance"
   ],
   "note": "false as stated: the tolerance of the decomposition is absolute, for small weights (Wendland<6> in float, sources at the same distance) entries of the moment matrix are dropped and linear functions are not reproduced (mls_defect_tolerance; exact arithmetic with the tolerance of float, the entries are below half of the tolerance); proved: the error is at most the tolerance divided by the value of the radial function at 10/11 and by a number that depends on the positions of the sources only"
  },
  {
   "property": "C102",
   "status": "proved",
   "theorems": [
    "ArborX.Lifetime.communicator_lifetime",
    "ArborX.Lifetime.no_communicator_leaks",
    "ArborX.Lifetime.same_calls"
   ],
   "note": "the other members of a tree are one value, which copies share; Kokkos::View and std::shared_ptr by specification"
  },
  {
   "property": "C103",
   "status": "partial",
   "theorems": [
    "ArborX.Fp.position_defined_iff",
    "ArborX.Fp.values_positions_defined_iff",
    "ArborX.Fp.points_positions_defined_iff",
    "ArborX.Fp.value_position_defined_partial",
    "ArborX.Fp.predicate_position_defined_partial",
    "ArborX.Fp.position_interleaves_partial",
    "ArborX.Fp.position_top_bit_partial",
    "ArborX.Fp.centroid_between_partial",
    "ArborX.Fp.empty_tree_position",
    "ArborX.Fp.nan_position",
    "ArborX.Fp.flushed_position",
    "ArborX.Fp.ball_positions_defined_iff",
    "ArborX.Fp.infinite_ball_positions",
    "ArborX.Fp.kdop_position_eq_box",
    "ArborX.Fp.kdop_position_defined_partial",
    "ArborX.Fp.morton_curves_fine",
    "ArborX.Fp.morton_curves_ok_one"
   ],
   "note": "exact conditions are proved for all finite scenes; the claim is false if the extent of the scene overflows and a centroid is too far from its lower end (for points: exactly if the extent overflows), for predicates with NaN, and for empty trees with far-away predicates; for balls exactly if a lower end, or its difference to a center, overflows; k-DOPs with intervals along the axes that are not empty are placed as their boxes (the code has no bounding box of an ellipsoid, so none can be a value); order and top bit: 2 to 10 dimensions"
  },
  {
   "property": "C104",
   "status": "partial",
   "theorems": [
    "ArborX.Fp.valid_point_iff",
    "ArborX.Fp.valid_sphere_iff",
    "ArborX.Fp.valid_box_iff",
    "ArborX.Fp.valid_box_extent_iff",
    "ArborX.Fp.flushed_box_not_valid",
    "ArborX.Fp.flat_box_not_valid",
    "ArborX.Fp.wide_box_not_valid",
    "ArborX.Fp.valid_box_meets",
    "ArborX.Fp.eq_point_iff",
    "ArborX.Fp.eq_point_iff_eq",
    "ArborX.Fp.eq_box_iff_eq",
    "ArborX.Fp.eq_sphere_iff_eq",
    "ArborX.Fp.eq_ray_same_hits_partial",
    "ArborX.Fp.eq_ray_different_hits"
   ],
   "note": "false of flat boxes and of boxes whose extent overflows, which are reported as not valid, and of equal rays with zeros of different signs; otherwise exact. Without gradual underflow, boxes whose extent is flushed to zero are not valid either"
  },
  {
   "property": "C105",
   "status": "partial",
   "theorems": [
    "ArborX.Reduce.min_reduce_exact",
    "ArborX.Reduce.max_reduce_exact",
    "ArborX.Reduce.minmax_reduce_exact",
    "ArborX.Reduce.minmax_reduce_finite",
    "ArborX.Reduce.min_reduce_infinite",
    "ArborX.Reduce.distributor_reduces"
   ],
   "note": "exact for integers and finite numbers; a view of floating-point numbers that are all infinite or NaN has the largest finite value as its minimum"
  },
  {
   "property": "C106",
   "status": "partial",
   "theorems": [
    "ArborX.Fp.dense_cells_finite",
    "ArborX.Fp.dense_cells_nan",
    "ArborX.Fp.dense_cells_infinite",
    "ArborX.Fp.dense_cells_agree"
   ],
   "note": "false of NaN and of infinities, where the behaviour is undefined (an infinity is treated in the first dimension only, as an error in an earlier dimension can come first); with finite points the cells are those of the model of C77"
  },
  {
   "property": "C107",
   "status": "partial",
   "theorems": [
    "ArborX.Interp.mls_checks_partial",
    "ArborX.Interp.mls_checks_coincident_partial",
    "ArborX.Interp.mls_check_fails"
   ],
   "note": "false of two sources close to each other (mls_check_fails); holds if the sources determine the polynomials or are all at the target; other singular positions are open; exact arithmetic with the tolerance"
  },
  {
   "property": "C108",
   "status": "partial",
   "theorems": [
    "ArborX.Verify.verify_iff",
    "ArborX.Verify.verify_star_iff",
    "ArborX.Verify.verify_fault",
    "ArborX.Verify.found_tree",
    "ArborX.Verify.verify_fdbscan",
    "ArborX.Verify.verifyDistributed_partial",
    "ArborX.Verify.verifyDistributed_accepts",
    "ArborX.Verify.verifyDistributed_wrong",
    "ArborX.Verify.verify_distributed_dbscan",
    "ArborX.Verify.found_distributed"
   ],
   "note": "proved for the version without MPI, for points near themselves (a point not found by its own query makes it access the view out of bounds: verify_fault); the distributed version accepts clusters that share a label (verifyDistributed_wrong), and checks exactly the other conditions, which is enough for the labels of the distributed dbscan: those are accepted exactly if they are right (verify_distributed_dbscan)"
  },
  {
   "property": "C109",
   "status": "partial",
   "theorems": [
    "ArborX.Euclid.point_query_tetrahedra_partial",
    "ArborX.Euclid.nearest_tetrahedra_partial",
    "ArborX.Euclid.flat_tetrahedron_reported",
    "ArborX.Geometry.intersects_point_tetrahedron_exact",
    "ArborX.Geometry.distance_point_tetrahedron_exact",
    "ArborX.Geometry.barycentric_tetrahedron_exact"
   ],
   "note": "false of flat tetrahedra, which are reported for points far away (flat_tetrahedron_reported); all others are found and reported correctly; exact arithmetic; nearest: stack as in C06"
  },
  {
   "property": "C11",
   "status": "partial",
   "theorems": [
    "ArborX.BruteForce.brute_force_spatial_partial",
    "ArborX.BruteForce.brute_force_spatial_large_partial",
    "ArborX.BruteForce.brute_force_spatial_wrong",
    "ArborX.BruteForce.brute_force_teams_overflow"
   ],
   "note": "exact for at most 2^24 values and queries, all tile sizes, with fewer than 2^31 pairs of tiles; with more pairs the int number of teams overflows (brute_force_teams_overflow); above 2^24 the single-precision tile count loses values (witness proved), at most three of 2^24, and nothing else is lost or added (large_partial)"
  },
  {
   "property": "C110",
   "status": "partial",
   "theorems": [
    "ArborX.Fp.box_query_any_corners_partial",
    "ArborX.Fp.box_query_meaning",
    "ArborX.Fp.empty_boxes_not_reported",
    "ArborX.Fp.empty_boxes_not_near_partial",
    "ArborX.Fp.empty_box_position",
    "ArborX.Fp.float_double_wide",
    "ArborX.Fp.lone_empty_box_near",
    "ArborX.Fp.inverted_box_missed"
   ],
   "note": "default-constructed boxes are never returned and hide nothing, unless one is the only value (lone_empty_box_near); boxes with other corners in the wrong order: exact for boxes and points, false for balls (inverted_box_missed); nearest: stack as in C06"
  },
  {
   "property": "C12",
   "status": "partial",
   "theorems": [
    "ArborX.BruteForce.brute_force_nearest_partial",
    "ArborX.BruteForce.brute_force_nearest_ok",
    "ArborX.BruteForce.brute_force_nearest_wrong"
   ],
   "note": "False of the code: the radius is not set after the first k values, so the next value replaces the farthest unconditionally (witness proved). Proved: exact characterisation of the result, and correctness when it happens to hold."
  },
  {
   "property": "C13",
   "status": "proved",
   "theorems": [
    "ArborX.Heap.push_correct",
    "ArborX.Heap.pop_correct",
    "ArborX.Heap.popPush_correct",
    "ArborX.Heap.queue_refines_multiset",
    "ArborX.Heap.queue_never_faults",
    "ArborX.Heap.makeHeap_correct",
    "ArborX.Heap.sortHeap_correct"
   ],
   "note": "every history of operations"
  },
  {
   "property": "C14",
   "status": "proved",
   "theorems": [
    "ArborX.StdAlg.nth_element_correct",
    "ArborX.StdAlg.nth_element_last"
   ],
   "note": "every array and strict weak order"
  },
  {
   "property": "C15",
   "status": "proved",
   "theorems": [
    "ArborX.StdAlg.upper_bound_correct",
    "ArborX.StdAlg.lower_bound_correct"
   ],
   "note": "every sorted range"
  },
  {
   "property": "C16",
   "status": "proved",
   "theorems": [
    "ArborX.Morton.expand32_spec",
    "ArborX.Morton.expand64_spec",
    "ArborX.Morton.morton32_interleaves",
    "ArborX.Morton.morton64_interleaves",
    "ArborX.Morton.morton32_eq_iff",
    "ArborX.Morton.morton64_eq_iff",
    "ArborX.Morton.morton32_mono",
    "ArborX.Morton.morton64_mono",
    "ArborX.Morton.morton64_cell",
    "ArborX.Morton.IsInterleaving.injective",
    "ArborX.Morton.IsInterleaving.mono"
   ],
   "note": "all arguments, all dimensions 2 to 10, with the rounding of the quantisation; in one dimension see C03"
  },
  {
   "property": "C17",
   "status": "proved",
   "theorems": [
    "ArborX.Perm.applyPermutation_correct",
    "ArborX.Perm.applyInversePermutation_correct",
    "ArborX.Perm.permutation_round_trip",
    "ArborX.Perm.permutation_keeps_elements",
    "ArborX.Perm.applyPermutationInPlace_correct",
    "ArborX.Perm.sortObjects_correct"
   ],
   "note": "the library sort is taken by its specification"
  },
  {
   "property": "C18",
   "status": "proved",
   "theorems": [
    "ArborX.UF.union_find_components",
    "ArborX.UF.union_find_wait_free",
    "ArborX.UF.union_find_schedule_independent",
    "ArborX.UF.no_fault",
    "ArborX.UF.complete_spec"
   ],
   "note": "all interleavings, any number of threads and merges; also the serial variant with one thread; wait-free"
  },
  {
   "property": "C19",
   "status": "proved",
   "theorems": [
    "ArborX.Dbscan.fdbscan_correct",
    "ArborX.Dbscan.fdbscan_terminates",
    "ArborX.Dbscan.canonical_unique",
    "ArborX.Dbscan.fdbscan_throws"
   ],
   "note": "implementation FDBSCAN, on top of the modelled tree, traversals and union-find; distance comparisons enter as a symmetric reflexive relation respected by the bounding volumes; the implementation FDBSCAN-DenseBox is under C21"
  },
  {
   "property": "C20",
   "status": "proved",
   "theorems": [
    "ArborX.Dbscan.fdbscan_star_correct",
    "ArborX.Dbscan.fdbscan_terminates"
   ],
   "note": "as C19"
  },
  {
   "property": "C21",
   "status": "partial",
   "theorems": [
    "ArborX.DenseBox.grid_cells_partial",
    "ArborX.DenseBox.same_cell_near",
    "ArborX.DenseBox.densebox_throws",
    "ArborX.DenseBox.densebox_correct",
    "ArborX.DenseBox.densebox_star_correct",
    "ArborX.DenseBox.densebox_terminates",
    "ArborX.DenseBox.densebox_agrees",
    "ArborX.DenseBox.densebox_grid_correct_partial",
    "ArborX.DenseBox.grid_aliasing",
    "ArborX.DenseBox.grid_wrong_box",
    "ArborX.DenseBox.grid_int_overflow",
    "ArborX.DenseBox.densebox_face_defect"
   ],
   "note": "the full claim is false of the code: a point on the upper face of the bounds, when the extent is a multiple of the cell length, gets the index of another cell (grid_aliasing, grid_wrong_box), with wrong labels as the observable effect (densebox_face_defect), and cell coordinates above 2^31 do not fit an int (grid_int_overflow). Proved for points below the end of the last cells and at most 2^31 cells along a dimension, exact coordinates"
  },
  {
   "property": "C22",
   "status": "partial",
   "theorems": [
    "ArborX.Boruvka.mst_correct_partial",
    "ArborX.Boruvka.mst_height_partial",
    "ArborX.Boruvka.mst_stack_overflow",
    "ArborX.Boruvka.mst_small",
    "ArborX.Graph.light_tree_optimal"
   ],
   "note": "Constructor of MinimumSpanningTree end to end (tree, findParents, reduceLabels, radii, searches on both code paths, atomic minima, label updates racing with reads), all interleavings, ties included; minimum among all connecting edge lists; terminates within log2(n) iterations (rounded up); racing plain loads return any value the location has held since the kernel started. Partial: assumes the 64-entry stack is large enough for the tree (holds up to 129 points, for short codes, and for codes shared by few points: mst_height_partial); without it the code writes out of bounds (mst_stack_overflow)."
  },
  {
   "property": "C23",
   "status": "proved",
   "theorems": [
    "ArborX.Dendrogram.dendrogram_correct",
    "ArborX.Dendrogram.dendrogram_single_linkage",
    "ArborX.Dendrogram.dendrogram_no_edges"
   ],
   "note": "Constructor of Dendrogram (sort by weight + sequential union-find) for every spanning tree with at least one edge, every weight assignment in a linear order, every permutation the library sort may return. dendrogram_no_edges: a tree of one vertex leads to a store out of bounds."
  },
  {
   "property": "C24",
   "status": "proved",
   "theorems": [
    "ArborX.Mst.directed_edge_roundtrip",
    "ArborX.Mst.directed_edge_order",
    "ArborX.Mst.directed_edge_key_inj",
    "ArborX.Mst.directed_edge_lt_default"
   ],
   "note": "64-bit keys as BitVec 64; vertices below 2^31, weights a linear order"
  },
  {
   "property": "C25",
   "status": "proved",
   "theorems": [
    "ArborX.Mst.weighted_edge_order"
   ],
   "note": ""
  },
  {
   "property": "C26",
   "status": "proved",
   "theorems": [
    "ArborX.Labels.findParents_correct",
    "ArborX.Labels.reduceLabels_correct",
    "ArborX.Labels.reduceLabels_wait_free"
   ],
   "note": "on the trees produced by the modelled constructor, every interleaving, plain loads return any value that coherence allows"
  },
  {
   "property": "C27",
   "status": "proved",
   "theorems": [
    "ArborX.Distributed.distributor_delivers",
    "ArborX.Distributed.distributor_delivers_batches",
    "ArborX.Distributed.deliver_perm"
   ],
   "note": "every number of processes, destination lists, arrival order, both ways to find the sources, both buffer modes; MPI by specification; messages of different exchanges do not mix (MPI non-overtaking); batches to one process have to be consecutive"
  },
  {
   "property": "C28",
   "status": "proved",
   "theorems": [
    "ArborX.Distributed.distributed_spatial",
    "ArborX.Distributed.distributed_spatial_pure"
   ],
   "note": "All numbers of processes, queries, values, empty processes, message orders and local schedules; the predicate has to be monotone from values to volumes and between volumes."
  },
  {
   "property": "C29",
   "status": "partial",
   "theorems": [
    "ArborX.Distributed.distributed_nearest_partial",
    "ArborX.Distributed.distributed_nearest_infinite",
    "ArborX.Distributed.distributed_nearest_empty_aborts"
   ],
   "note": "Both phases, the communication, the truncation of ranks, nth_element and the priority queue are modelled, for every number of processes, distribution and k. Partial because the overload without callback aborts on a tree without values in builds with assertions; the theorem covers everything else. Hypotheses on the geometry: volumes are never farther than what they contain, and the second-phase predicate finds volumes within the radius."
  },
  {
   "property": "C30",
   "status": "partial",
   "theorems": [
    "ArborX.DistDbscan.merge_labels_partial",
    "ArborX.DistDbscan.merge_unique_partial",
    "ArborX.DistDbscan.merge_loses_labels"
   ],
   "note": "false as stated: five processes sharing ten points on a line end with two clusters (merge_loses_labels); proved: the merge phase ends, gives one value per label on all processes, never joins labels that are not connected, and joins connected labels if at most three are connected or if the filtered pairs have unique targets"
  },
  {
   "property": "C31",
   "status": "proved",
   "theorems": [
    "ArborX.Geometry.bounding_box_least",
    "ArborX.Geometry.bounding_box_deterministic",
    "ArborX.Geometry.sequential_iters"
   ],
   "note": "every reduction tree over every list of points, boxes, spheres, segments, triangles and tetrahedra with coordinates in the finite range; exact arithmetic"
  },
  {
   "property": "C32",
   "status": "proved",
   "theorems": [
    "ArborX.Geometry.intersects_point_box",
    "ArborX.Geometry.intersects_box_box",
    "ArborX.Geometry.intersects_sphere_box",
    "ArborX.Geometry.intersects_sphere_point",
    "ArborX.Geometry.intersects_sphere_sphere",
    "ArborX.Geometry.intersects_sphere_triangle_partial",
    "ArborX.Geometry.intersects_sphere_triangle_exact"
   ],
   "note": "every dimension, exact real arithmetic; sphere-triangle (beyond the property): also for a = b, unless the closest point is NaN (intersects_sphere_triangle_exact)"
  },
  {
   "property": "C33",
   "status": "proved",
   "theorems": [
    "ArborX.Geometry.distance_point_point",
    "ArborX.Geometry.distance_point_box",
    "ArborX.Geometry.distance_box_box",
    "ArborX.Geometry.distance_sphere_box",
    "ArborX.Geometry.distance_point_sphere",
    "ArborX.Geometry.distance_sphere_sphere",
    "ArborX.Geometry.distance_lower_bound",
    "ArborX.Geometry.distance_point_segment",
    "ArborX.Geometry.distance_point_tetrahedron",
    "ArborX.Geometry.distance_point_triangle_partial",
    "ArborX.Geometry.distance_point_triangle_exact"
   ],
   "note": "every dimension, exact real arithmetic; point-triangle (beyond the property): also for a = b, unless the closest point is NaN (distance_point_triangle_exact)"
  },
  {
   "property": "C34",
   "status": "proved",
   "theorems": [
    "ArborX.Geometry.kdop_contains",
    "ArborX.Geometry.kdop_least",
    "ArborX.Geometry.kdop_halfspaces",
    "ArborX.Geometry.intersects_point_kdop",
    "ArborX.Geometry.intersects_kdop_kdop",
    "ArborX.Geometry.intersects_kdop_box",
    "ArborX.Geometry.intersects_kdop_box_slab",
    "ArborX.Geometry.box_expand_kdop",
    "ArborX.Geometry.kdop_to_box"
   ],
   "note": "all six families; any ordered field; kdop_halfspaces describes the result without the tables of directions"
  },
  {
   "property": "C35",
   "status": "partial",
   "theorems": [
    "ArborX.Geometry.intersects_box_triangle_exact_partial",
    "ArborX.Geometry.intersects_box_triangle_level_partial",
    "ArborX.Geometry.intersects_box_triangle_sound_partial",
    "ArborX.Geometry.intersects_box_triangle_wrong",
    "ArborX.Geometry.intersects_box_triangle_wrong_positive"
   ],
   "note": "the code violates the property: one of the nine edge tests reads a[1], b[1] instead of a[0], b[0]; both directions refuted. Proved exact (separating axis theorem, degenerate triangles included) for all boxes and triangles for which this test gives the answer it would give with the right components, in particular if b[2] = c[2]."
  },
  {
   "property": "C36",
   "status": "partial",
   "theorems": [
    "ArborX.Geometry.intersects_ray_box_partial",
    "ArborX.Geometry.distance_ray_box_partial",
    "ArborX.Geometry.intersects_ray_box_negative_zero",
    "ArborX.Geometry.intersects_ray_box_exact",
    "ArborX.Geometry.distance_ray_box_exact"
   ],
   "note": "all rays whose zero direction components are positive zeros; refuted for negative zeros (intersects_ray_box_negative_zero); the exact theorems say what the results are for every ray: the box is missed exactly if some component is a negative zero where the origin is not on the lower face; any ordered field with infinities"
  },
  {
   "property": "C37",
   "status": "proved",
   "theorems": [
    "ArborX.Geometry.intersects_segment_segment",
    "ArborX.Geometry.intersects_segment_box"
   ],
   "note": "any ordered field, degenerate segments included, boxes with ordered corners"
  },
  {
   "property": "C38",
   "status": "partial",
   "theorems": [
    "ArborX.Geometry.closest_point_triangle_partial",
    "ArborX.Geometry.closest_point_triangle_nan",
    "ArborX.Geometry.closest_point_triangle_exact",
    "ArborX.Geometry.closest_point_segment"
   ],
   "note": "segments: all. Triangles: all with a /= b, in every dimension; for a = b the code divides 0 by 0 exactly if the foot of the perpendicular is strictly between a and c, and is right otherwise (closest_point_triangle_exact)"
  },
  {
   "property": "C39",
   "status": "proved",
   "theorems": [
    "ArborX.Geometry.barycentric_triangle",
    "ArborX.Geometry.intersects_point_triangle",
    "ArborX.Geometry.barycentric_tetrahedron",
    "ArborX.Geometry.intersects_point_tetrahedron"
   ],
   "note": "any ordered field"
  },
  {
   "property": "C40",
   "status": "partial",
   "theorems": [
    "ArborX.Geometry.intersects_ellipsoid_point",
    "ArborX.Geometry.intersects_ellipsoid_segment",
    "ArborX.Geometry.intersects_ellipsoid_box_2d",
    "ArborX.Geometry.intersects_ellipsoid_box_3d_sound",
    "ArborX.Geometry.intersects_ellipsoid_box_3d_partial",
    "ArborX.Geometry.intersects_ellipsoid_box_3d_wrong"
   ],
   "note": "2D: proved exact. 3D: true answers are right; false answers are right for axis-parallel ellipsoids; refuted in general because the parameters of a face are clamped independently."
  },
  {
   "property": "C41",
   "status": "proved",
   "theorems": [
    "ArborX.Interp.polynomial_basis",
    "ArborX.Interp.mls_error",
    "ArborX.Interp.mls_reproduces",
    "ArborX.Interp.CRBF.evaluate_pos",
    "ArborX.Interp.CRBF.evaluate_zero"
   ],
   "note": "exact real arithmetic, the tolerance of the floating point type is a parameter: mls_error bounds the error for every tolerance, mls_reproduces is the limit; the moment matrix is assembled, decomposed and inverted as in the code"
  },
  {
   "property": "C42",
   "status": "proved",
   "theorems": [
    "ArborX.Perm.computeOffsets_correct",
    "ArborX.Perm.offsets_groups"
   ],
   "note": ""
  },
  {
   "property": "C43",
   "status": "proved",
   "theorems": [
    "ArborX.DenseBox.reorder_correct",
    "ArborX.DenseBox.reorder_perm",
    "ArborX.DenseBox.reorder_wait_free"
   ],
   "note": "all interleavings of the atomic additions and of the copies"
  },
  {
   "property": "C44",
   "status": "proved",
   "theorems": [
    "ArborX.Distributed.closestFactors_correct"
   ],
   "note": "std::sort by specification; every n in [1, 2^31) and DIM >= 1; at most 2n steps of trial division, no overflow"
  },
  {
   "property": "C45",
   "status": "proved",
   "theorems": [
    "ArborX.Traversal.spatial_query_single",
    "ArborX.Traversal.spatial_query_empty",
    "ArborX.Traversal.per_thread_eq",
    "ArborX.Traversal.per_thread_small_faults"
   ],
   "note": "per-thread interface faults below two values (precondition)"
  },
  {
   "property": "C46",
   "status": "proved",
   "theorems": [
    "ArborX.Boruvka.core_distance_correct",
    "ArborX.Boruvka.core_unique",
    "ArborX.Boruvka.mutual_reachability",
    "ArborX.Boruvka.mst_k_correct_partial"
   ],
   "note": "core distances from the modelled nearest query (stack large enough assumed as in C06) with the MaxDistance callback; the constructor of MinimumSpanningTree for every k"
  },
  {
   "property": "C47",
   "status": "proved",
   "theorems": [
    "ArborX.Geometry.overlap_distance_sphere"
   ],
   "note": "exact real arithmetic, unit direction, radius >= 0"
  },
  {
   "property": "C48",
   "status": "partial",
   "theorems": [
    "ArborX.DistDbscan.distributed_dbscan_sound_partial",
    "ArborX.DistDbscan.distributed_dbscan_partial",
    "ArborX.DistDbscan.distributed_dbscan_defect",
    "ArborX.DistDbscan.euclid_geometry"
   ],
   "note": "false as stated: six ranks with one point each on a line end with two clusters (distributed_dbscan_defect); proved for every distribution and every execution without the race of C49: the function ends, the noise points are exactly those of the union, equal labels imply the same cluster (sound_partial), and the result is a DBSCAN/DBSCAN* clustering of the union if no cluster has more than three labels before the merge (partial); euclid_geometry shows that real points, eps and 2 eps satisfy the geometric hypotheses"
  },
  {
   "property": "C49",
   "status": "partial",
   "theorems": [
    "ArborX.DistDbscan.compress_inOrder_partial",
    "ArborX.DistDbscan.compress_noNoise_partial",
    "ArborX.DistDbscan.compress_race"
   ],
   "note": "false as stated: with two threads a label can be overwritten before it is read (compress_race); proved if the threads run one after the other, or if there is no noise among the ghosts"
  },
  {
   "property": "C50",
   "status": "proved",
   "theorems": [
    "ArborX.Interp.symmetricSVD_spec"
   ],
   "note": "exact real arithmetic with the tolerance as a parameter; termination is for every symmetric matrix"
  },
  {
   "property": "C51",
   "status": "partial",
   "theorems": [
    "ArborX.Interp.mls_keeps_constant",
    "ArborX.Interp.mls_degenerate_partial",
    "ArborX.Interp.rowEchelon_independent",
    "ArborX.Interp.rowEchelon_sources",
    "ArborX.Interp.rowEchelon_defect"
   ],
   "note": "false as stated: the pivot search starts at row 0 and the elimination may keep dependent monomials (rowEchelon_defect); proved: coefficients are always computed, the constant is kept, and combinations of the kept monomials are reproduced up to the tolerance whenever these are independent on the sources; unless the search falls back to row 0 the kept monomials are independent on the sources and the rows of the others are combinations of the kept rows up to the tolerance (rowEchelon_independent, rowEchelon_sources)"
  },
  {
   "property": "C52",
   "status": "partial",
   "theorems": [
    "ArborX.Euclid.spatial_query_geometry_partial",
    "ArborX.Euclid.intersects_exact",
    "ArborX.Euclid.box_query_triangles_partial",
    "ArborX.Euclid.box_query_triangle_missed"
   ],
   "note": "exact arithmetic; proved for all pairs of geometries except box-triangle and segment-triangle, triangles and tetrahedra not degenerate; false for boxes and triangles because of the defect of C35 (box_query_triangle_missed); box_query_triangles_partial says which triangles a box finds on a tree of triangles, degenerate ones included"
  },
  {
   "property": "C53",
   "status": "proved",
   "theorems": [
    "ArborX.Euclid.nearest_query_geometry",
    "ArborX.Euclid.distance_exact",
    "ArborX.Euclid.stack_fits_partial"
   ],
   "note": "exact arithmetic; the hypothesis on the stack is met by up to 129 values, and by any number of them of which only a few (three in three dimensions) share a cell of the Morton grid (stack_fits_partial)"
  },
  {
   "property": "C54",
   "status": "proved",
   "theorems": [
    "ArborX.Interp.mls_interpolation",
    "ArborX.Interp.search_rows"
   ],
   "note": "exact real arithmetic, tolerance and number of sweeps as parameters; the two writes of the callback are one step"
  },
  {
   "property": "C55",
   "status": "proved",
   "theorems": [
    "ArborX.Euclid.dbscan_points",
    "ArborX.Euclid.dbscan_points_terminates"
   ],
   "note": "exact arithmetic; implementation FDBSCAN; instance of C19 and C20 with the tree, the codes and the geometric tests of the library"
  },
  {
   "property": "C56",
   "status": "partial",
   "theorems": [
    "ArborX.Euclid.mst_points_partial"
   ],
   "note": "exact arithmetic; the stacks of 64 entries must be large enough for the tree (up to 129 points, or few points per cell of the Morton grid: stack_fits_partial)"
  },
  {
   "property": "C57",
   "status": "proved",
   "theorems": [
    "ArborX.Euclid.neighbor_list_points",
    "ArborX.Neighbor.half_terminates",
    "ArborX.Neighbor.full_terminates"
   ],
   "note": "exact arithmetic; instance of C10 with the tree, the codes and the geometric tests of the library"
  },
  {
   "property": "C58",
   "status": "partial",
   "theorems": [
    "ArborX.Geometry.ray_triangle_no_miss_partial",
    "ArborX.Geometry.ray_triangle_parameter",
    "ArborX.Geometry.ray_triangle_near",
    "ArborX.Geometry.ray_triangle_exact_partial",
    "ArborX.Geometry.ray_triangle_defect_small",
    "ArborX.Geometry.ray_triangle_defect_edge"
   ],
   "note": "exact arithmetic with the two tolerances as parameters. No miss for rays in the plane or outside the tolerance of it which do not start on an edge; exact without tolerances. Defects: a triangle small compared with its distance is taken for coplanar and reported although the ray passes it; a ray which starts on an edge can miss the triangle"
  },
  {
   "property": "C59",
   "status": "partial",
   "theorems": [
    "ArborX.Geometry.segment_triangle_no_miss_partial",
    "ArborX.Geometry.segment_triangle_exact_partial",
    "ArborX.Geometry.segment_triangle_coplanar_partial",
    "ArborX.Geometry.segment_triangle_defect"
   ],
   "note": "exact arithmetic; false for segments in the plane of the triangle that start outside and end inside (segment_triangle_defect); segment_triangle_coplanar_partial says exactly which segments parallel to the plane are found"
  },
  {
   "property": "C60",
   "status": "partial",
   "theorems": [
    "ArborX.Hdbscan.hdbscan_correct_partial",
    "ArborX.Hdbscan.hmst_correct_partial",
    "ArborX.Hdbscan.hmst_k_correct_partial",
    "ArborX.Hdbscan.unionFindDendrogram_correct",
    "ArborX.Hdbscan.hdbscan_small",
    "ArborX.Euclid.hdbscan_points_partial"
   ],
   "note": "exact arithmetic; the bit patterns of the distances are assumed to be ordered like the distances and below 2^31; the stacks of 64 entries must be large enough for the tree (up to 129 points, or few points per cell of the Morton grid: stack_fits_partial); at most 2^30 points"
  },
  {
   "property": "C61",
   "status": "proved",
   "theorems": [
    "ArborX.Euclid.distributed_spatial_geometry",
    "ArborX.Euclid.intersects_exact"
   ],
   "note": "exact arithmetic; pairs of geometries as in C52; the codes of the top tree are those of arbitrary points"
  },
  {
   "property": "C62",
   "status": "partial",
   "theorems": [
    "ArborX.Euclid.distributed_nearest_geometry_partial",
    "ArborX.Euclid.top_stack_fits",
    "ArborX.Euclid.stack_fits_partial",
    "ArborX.Euclid.distance_exact"
   ],
   "note": "exact arithmetic with arbitrary outward rounding of the radius; partial because of the abort of C29 on trees without values and of the stacks of C06 (up to 129 processes, and up to 129 values per process or few in each cell of the Morton grid)"
  },
  {
   "property": "C63",
   "status": "proved",
   "theorems": [
    "ArborX.Euclid.crs_spatial_geometry",
    "ArborX.Euclid.crs_nearest_geometry",
    "ArborX.Euclid.intersects_exact",
    "ArborX.Euclid.distance_exact",
    "ArborX.Euclid.stack_fits_partial"
   ],
   "note": "exact arithmetic; composition of C09, C52 and C53; the hypothesis on the stack for nearest as in C53"
  },
  {
   "property": "C64",
   "status": "proved",
   "theorems": [
    "ArborX.Fp.spatial_query_float",
    "ArborX.Fp.box_query_float",
    "ArborX.Fp.sphere_values_hidden"
   ],
   "note": "coordinates finite, no NaN; values are points and boxes, for which the corners of the boxes in the tree are not rounded (sphere_values_hidden: not true of spheres as values in float)"
  },
  {
   "property": "C65",
   "status": "partial",
   "theorems": [
    "ArborX.Fp.nearest_query_float",
    "ArborX.Fp.nearest_overflow"
   ],
   "note": "values whose squared distance overflows are not found (nearest_overflow); the 64-entry stack must be large enough (C06)"
  },
  {
   "property": "C66",
   "status": "proved",
   "theorems": [
    "ArborX.Fp.distance_accuracy",
    "ArborX.Fp.ball_query_accuracy",
    "ArborX.Fp.nearest_query_accuracy",
    "ArborX.Fp.Ieee.accurate",
    "ArborX.Fp.float_accurate",
    "ArborX.Fp.double_accurate"
   ],
   "note": "correctly rounded square root; the hypothesis on the stack for nearest as in C53"
  },
  {
   "property": "C67",
   "status": "proved",
   "theorems": [
    "ArborX.Fp.dbscan_float",
    "ArborX.Fp.dbscan_float_terminates",
    "ArborX.Fp.dbscan_float_clear",
    "ArborX.Fp.neighbor_list_float",
    "ArborX.Neighbor.half_terminates",
    "ArborX.Neighbor.full_terminates"
   ],
   "note": "FDBSCAN with core_min_size at least 2"
  },
  {
   "property": "C68",
   "status": "partial",
   "theorems": [
    "ArborX.Fp.mst_float_partial",
    "ArborX.Fp.mst_float_accuracy",
    "ArborX.Fp.hdbscan_float_partial",
    "ArborX.Fp.Cloud.bits_ok"
   ],
   "note": "the stacks of 64 entries must be large enough for the tree (C06); computed distances must not overflow"
  },
  {
   "property": "C69",
   "status": "proved",
   "theorems": [
    "ArborX.Fp.distributed_spatial_float"
   ],
   "note": "coordinates finite, no NaN; values are points and boxes as in C64"
  },
  {
   "property": "C70",
   "status": "partial",
   "theorems": [
    "ArborX.Fp.distributed_nearest_float_partial",
    "ArborX.Fp.distributed_nearest_box_partial",
    "ArborX.Fp.distributed_nearest_box_integers_partial",
    "ArborX.Fp.box_query_lost",
    "ArborX.Fp.Ieee.exists_next",
    "ArborX.Fp.Ieee.spaced"
   ],
   "note": "points and balls as queries; for a box as query the second phase can miss a value found in the first (box_query_lost), but only if computed distances are smaller than the exact distances along an axis (distributed_nearest_box_partial), and never for integer coordinates up to 1182 in float and three dimensions (distributed_nearest_box_integers_partial); stacks as in C06; assertion on a tree without values as in C29"
  },
  {
   "property": "C71",
   "status": "partial",
   "theorems": [
    "ArborX.Euclid.ray_query_boxes_partial",
    "ArborX.Euclid.ray_query_triangles_partial",
    "ArborX.Euclid.ray_query_exact_partial",
    "ArborX.Euclid.ray_nearest_partial",
    "ArborX.Euclid.ray_ordered_partial",
    "ArborX.Euclid.ray_nearest_single",
    "ArborX.Euclid.ray_query_negative_zero",
    "ArborX.Euclid.ray_query_negative_zero_nothing"
   ],
   "note": "directions without negative zeros (C36; with one, boxes are missed: ray_query_negative_zero); a tree of one box returns it even if the ray misses it (ray_nearest_single); ordered queries as in C07; tolerances of the ray-triangle test as in C58; exact arithmetic"
  },
  {
   "property": "C72",
   "status": "partial",
   "theorems": [
    "ArborX.Fp.brute_force_geometry_partial",
    "ArborX.Fp.brute_force_tree_agree_partial",
    "ArborX.Fp.brute_force_nearest_agree_partial",
    "ArborX.Fp.brute_force_nearest_geometry_partial"
   ],
   "note": "at most 2^24 values and queries and 2^31 pairs of tiles (C11); for nearest, orders of the values in which the code does not lose one (C12), and stacks as in C06"
  },
  {
   "property": "C73",
   "status": "partial",
   "theorems": [
    "ArborX.Fp.distributed_dbscan_float_sound_partial",
    "ArborX.Fp.distributed_dbscan_float_partial",
    "ArborX.Fp.exact_reaches",
    "ArborX.Fp.distributed_dbscan_float_defect"
   ],
   "note": "the code forwards points within nextafter(2 eps), which in floating point can be too short; shown for inputs where it is not, and for at most three labels per point (see C48) where all connected points must agree"
  },
  {
   "property": "C74",
   "status": "partial",
   "theorems": [
    "ArborX.Nearest.nearest_batch_partial",
    "ArborX.Nearest.nearest_batch_independent_partial",
    "ArborX.BruteForce.brute_force_batch_partial",
    "ArborX.Shared.independent",
    "ArborX.Nearest.nearest_batch_overflow"
   ],
   "note": "the k of all queries must add up to less than 2^31, otherwise the offsets overflow (nearest_batch_overflow)"
  },
  {
   "property": "C75",
   "status": "partial",
   "theorems": [
    "ArborX.Viz.visit_all_partial",
    "ArborX.Viz.graphviz_partial",
    "ArborX.Viz.fits_small",
    "ArborX.Viz.fits_codes",
    "ArborX.Viz.visit_stack_overflow",
    "ArborX.Viz.visit_all_small"
   ],
   "note": "a tree of one value is not visited (visit_all_small); the stack must be large enough for the tree (at most 64 values, or short codes); otherwise the code writes outside of it (visit_stack_overflow)"
  },
  {
   "property": "C76",
   "status": "partial",
   "theorems": [
    "ArborX.Crs.Int32.crs_int_partial",
    "ArborX.Crs.Int32.crs_int_rows_partial",
    "ArborX.Crs.Int32.crs_int_spatial_partial",
    "ArborX.Crs.Int32.crs_results_lost",
    "ArborX.Crs.Int32.crs_spatial_lost"
   ],
   "note": "fewer than 2^31 results and reserved places; false otherwise (crs_results_lost)"
  },
  {
   "property": "C77",
   "status": "partial",
   "theorems": [
    "ArborX.Fp.densebox_float_clear_partial",
    "ArborX.Fp.densebox_float_joins",
    "ArborX.Fp.densebox_float_splits"
   ],
   "note": "points clear of the rounding of distances and of the grid; false otherwise (densebox_float_joins, densebox_float_splits)"
  },
  {
   "property": "C78",
   "status": "proved",
   "theorems": [
    "ArborX.Traversal.weak_build",
    "ArborX.Traversal.weak_construction",
    "ArborX.Traversal.weak_spatial_query",
    "ArborX.Traversal.weak_without_order"
   ],
   "note": "assumes that the compare-exchange releases and that the load fence acquires; weak_without_order shows that both are needed"
  },
  {
   "property": "C79",
   "status": "proved",
   "theorems": [
    "ArborX.UF.weak_union_find_components",
    "ArborX.UF.weak_union_find_wait_free",
    "ArborX.UF.weak_contains_strong",
    "ArborX.UF.union_find_serial_two_threads",
    "ArborX.Dbscan.weak_fdbscan_correct",
    "ArborX.Dbscan.weak_fdbscan_terminates",
    "ArborX.DenseBox.weak_densebox_correct",
    "ArborX.DenseBox.weak_densebox_terminates",
    "ArborX.Dbscan.weak_fdbscan_throws",
    "ArborX.DenseBox.weak_densebox_throws"
   ],
   "note": "loads that return a value stored later in the execution (load buffering) are not covered"
  },
  {
   "property": "C80",
   "status": "proved",
   "theorems": [
    "ArborX.Traversal.callback_batch",
    "ArborX.Traversal.callback_batch_exact",
    "ArborX.Traversal.callback_batch_reduce",
    "ArborX.Traversal.callback_batch_ends"
   ],
   "note": "a call of the callback is one atomic step"
  },
  {
   "property": "C81",
   "status": "proved",
   "theorems": [
    "ArborX.Fp.spatial_query_kdop",
    "ArborX.Fp.box_query_kdop",
    "ArborX.Fp.kdop_query_points"
   ],
   "note": "boxes with ordered corners; coordinates finite"
  },
  {
   "property": "C82",
   "status": "partial",
   "theorems": [
    "ArborX.Boruvka.mst_deterministic_partial",
    "ArborX.Boruvka.mst_k_deterministic_partial",
    "ArborX.Boruvka.mst_weights_deterministic_partial",
    "ArborX.Boruvka.mst_k_weights_deterministic_partial",
    "ArborX.Boruvka.mst_deterministic_distinct_partial",
    "ArborX.Boruvka.mst_sort_dependent"
   ],
   "note": "same assumptions as C22 (stack of 64 entries large enough, exact or order-only weights); the order of the edges and their directions are not compared; with ties among the weights, values with equal Morton codes must have been sorted in the same order in both executions: the sort is not stable and otherwise the edges can differ (mst_sort_dependent), though their weights cannot"
  },
  {
   "property": "C83",
   "status": "partial",
   "theorems": [
    "ArborX.Distributed.bounds_least",
    "ArborX.Distributed.weak_bounds_least",
    "ArborX.Distributed.brute_force_bounds_least",
    "ArborX.Distributed.distributed_bounds_least",
    "ArborX.Distributed.distributed_size_partial",
    "ArborX.Distributed.distributed_size_overflow",
    "ArborX.Euclid.bounds_geometry"
   ],
   "note": "bounds() is proved; size() of a distributed tree is summed in int and is wrong from 2^31 values on (distributed_size_overflow)"
  },
  {
   "property": "C84",
   "status": "proved",
   "theorems": [
    "ArborX.Interp.crbf_decreasing",
    "ArborX.Interp.mls_nearer_weighs_more"
   ],
   "note": "exact real arithmetic"
  },
  {
   "property": "C85",
   "status": "proved",
   "theorems": [
    "ArborX.Euclid.radius_search",
    "ArborX.Euclid.nearest_search",
    "ArborX.Euclid.attach_indices_narrow",
    "ArborX.Fp.radius_search_float",
    "ArborX.Fp.radius_search_float_exact",
    "ArborX.Fp.nearest_search_float"
   ],
   "note": "in exact real arithmetic, and in floating-point arithmetic for the computed distances; for nearest the stack must be large enough (C06)"
  },
  {
   "property": "C86",
   "status": "partial",
   "theorems": [
    "ArborX.Hdbscan.hdbscan_deterministic_partial",
    "ArborX.Hdbscan.IsDendrogram.heights_perm",
    "ArborX.Hdbscan.IsDendrogram.count"
   ],
   "note": "same assumptions as C60 (stacks of 64 entries large enough, at most 2^30 points, bit patterns ordered like the distances, which Fp.Cloud.bits_ok proves for float)"
  },
  {
   "property": "C87",
   "status": "partial",
   "theorems": [
    "ArborX.Fp.ray_query_float_partial",
    "ArborX.Fp.ray_nearest_float_partial",
    "ArborX.Fp.ray_ordered_float_partial",
    "ArborX.Fp.ray_box_complete",
    "ArborX.Fp.ray_box_sound",
    "ArborX.Fp.ray_query_nan"
   ],
   "note": "false for directions with a negative zero (C36) and when differences of coordinates overflow along an axis with a zero of the direction (ray_query_nan); nearest: more than one box and the stack large enough (C06); ordered: the buffer suffices (as in C07: at most 65 boxes, or few nodes met), and one more box may follow (C07)"
  },
  {
   "property": "C88",
   "status": "partial",
   "theorems": [
    "ArborX.Euclid.dbscan_is_cut_partial",
    "ArborX.Fp.dbscan_is_cut_float_partial",
    "ArborX.Euclid.dbscan_monotone",
    "ArborX.Fp.dbscan_float_monotone"
   ],
   "note": "the comparison with hdbscan has the assumptions of C60 (stacks of 64 entries large enough, at most 2^30 points); the second part is proved without them"
  },
  {
   "property": "C89",
   "status": "partial",
   "theorems": [
    "ArborX.Fp.any_geometry_query_float_partial",
    "ArborX.Fp.any_geometry_nearest_float_partial",
    "ArborX.Fp.box_triangle_query_float",
    "ArborX.Fp.triangle_values_hidden"
   ],
   "note": "box queries on triangles: proved, however the tests after the first are computed; for other queries a value can be missed if the computation for its own box disagrees with that for the value, and only then; triangle_values_hidden shows that this happens for point queries on triangles"
  },
  {
   "property": "C90",
   "status": "partial",
   "theorems": [
    "ArborX.Hdbscan.dbscan_invariant",
    "ArborX.Hdbscan.mst_invariant_partial",
    "ArborX.Hdbscan.hdbscan_invariant_partial",
    "ArborX.Hdbscan.same_distances_reordered",
    "ArborX.Hdbscan.same_distances_moved"
   ],
   "note": "dbscan: proved; trees and dendrograms: stacks of 64 entries assumed large enough, as for C22 and C60"
  },
  {
   "property": "C91",
   "status": "proved",
   "theorems": [
    "ArborX.BVH.int_construction",
    "ArborX.BVH.int_construction_overflow",
    "ArborX.BVH.int_query",
    "ArborX.BVH.int_query_debug_overflow",
    "ArborX.BVH.int_accesses",
    "ArborX.BVH.int_nearest_query",
    "ArborX.BVH.int_ordered_query",
    "ArborX.BVH.int_half_traversal",
    "ArborX.BVH.int_traversals_debug_overflow"
   ],
   "note": "the bound 2^30 is sharp: beyond it the code overflows"
  },
  {
   "property": "C92",
   "status": "proved",
   "theorems": [
    "ArborX.Fp.intersects_query_nan",
    "ArborX.Fp.ball_query_nan",
    "ArborX.Fp.nearest_query_nan_points",
    "ArborX.Nearest.nearest_query_nan",
    "ArborX.Fp.nan_value_depends",
    "ArborX.Fp.infinite_ball_misses"
   ],
   "note": "nearest: the stack of 64 entries assumed large enough, as for C05; whether a value with NaN is itself returned by a box query depends on the tree"
  },
  {
   "property": "C93",
   "status": "proved",
   "theorems": [
    "ArborX.Fp.dbscan_nan",
    "ArborX.Fp.dbscan_nan_terminates",
    "ArborX.Fp.dbscan_nan_ignored"
   ],
   "note": "FDBSCAN only: the dense-box variant is undefined there, see C106"
  },
  {
   "property": "C94",
   "status": "partial",
   "theorems": [
    "ArborX.Boruvka.core_distance_infinite",
    "ArborX.Boruvka.mst_connected_partial",
    "ArborX.Boruvka.mst_disconnected",
    "ArborX.Boruvka.mst_k_infinite_partial",
    "ArborX.Hdbscan.hdbscan_infinite_partial",
    "ArborX.Fp.mst_float_infinite_partial",
    "ArborX.Fp.hdbscan_float_infinite_partial",
    "ArborX.Fp.far_apart_fault"
   ],
   "note": "the stack of 64 entries is assumed to be large enough for the tree, as in C22; without connecting finite distances the property fails, as mst_disconnected and far_apart_fault prove"
  },
  {
   "property": "C95",
   "status": "partial",
   "theorems": [
    "ArborX.Distributed.create_int_iff",
    "ArborX.Distributed.distributor_bytes",
    "ArborX.Distributed.distributor_delivers_bytes_partial",
    "ArborX.Distributed.distributor_bytes_iff",
    "ArborX.Distributed.distributor_loses",
    "ArborX.DistDbscan.gather_bytes_partial",
    "ArborX.DistDbscan.gather_loses",
    "ArborX.DistDbscan.gather_overflow"
   ],
   "note": "delivery is proved exactly for messages of less than 2^31 bytes; for larger ones the property fails, as distributor_bytes_iff, distributor_loses and gather_loses prove"
  },
  {
   "property": "C96",
   "status": "partial",
   "theorems": [
    "ArborX.Async.crs_query_async",
    "ArborX.Async.buffer_layout_async",
    "ArborX.Async.sort_layout_async",
    "ArborX.Async.exchange_async",
    "ArborX.Async.exchange_initialised",
    "ArborX.Async.gather_boxes_async",
    "ArborX.Async.merge_pairs_async",
    "ArborX.Async.boruvka_async",
    "ArborX.Async.dendrogram_async",
    "ArborX.Async.bounds_fenced_partial",
    "ArborX.Async.bounds_unfenced",
    "ArborX.Async.bounds_unfenced_race",
    "ArborX.Async.distributed_tree_stale",
    "ArborX.Async.distributed_tree_fenced",
    "ArborX.Async.stale_rank_missed",
    "ArborX.Async.labels_dangling",
    "ArborX.Async.labels_fenced",
    "ArborX.Async.safe_deterministic"
   ],
   "note": "determinism is proved for all functions with a fence; for bounds(), the constructor of the distributed tree and the conversion of labels the property fails, as bounds_unfenced, distributed_tree_stale and labels_dangling prove"
  },
  {
   "property": "C97",
   "status": "partial",
   "theorems": [
    "ArborX.Mpi.distributed_spatial_processes",
    "ArborX.Mpi.distributed_spatial_pure_processes",
    "ArborX.Mpi.distributed_nearest_processes",
    "ArborX.Mpi.distributed_calls_processes",
    "ArborX.Mpi.distributed_dbscan_processes_partial",
    "ArborX.Mpi.distributed_dbscan_ends_partial",
    "ArborX.Mpi.user_message_defect",
    "ArborX.Mpi.one_process_fails",
    "ArborX.Mpi.runs_allEnd"
   ],
   "note": "proved for the distributed tree without further conditions; for distributed DBSCAN if no message with its tag is under way on the communicator, otherwise the property fails, as user_message_defect proves. Nearest queries and DBSCAN inherit the conditions of C29 and C48"
  },
  {
   "property": "C98",
   "status": "proved",
   "theorems": [
    "ArborX.Mpi.calls_are_collective",
    "ArborX.Mpi.distributed_spatial_among_user",
    "ArborX.Mpi.distributed_nearest_among_user",
    "ArborX.Mpi.distributed_dbscan_among_user_partial"
   ],
   "note": "the distributed tree needs no condition but those of C28 and C29; distributed DBSCAN inherits the conditions of C48 and needs a communicator of its own (C97, user_message_defect)"
  },
  {
   "property": "C99",
   "status": "proved",
   "theorems": [
    "ArborX.Fp.svd_float_ends",
    "ArborX.Fp.svd_float32_ends",
    "ArborX.Fp.svd_float64_ends",
    "ArborX.Fp.Ieee.close"
   ],
   "note": "the number of iterations is not bounded explicitly; sizes of matrices are limited so that rounding errors are smaller than the progress of an iteration"
  }
 ]
}