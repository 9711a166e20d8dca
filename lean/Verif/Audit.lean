import Verif.Async.Safe
import Verif.Async.Theorems
import Verif.BVH.Build
import Verif.Boruvka.Core
import Verif.Boruvka.Determinism
import Verif.Boruvka.Finite
import Verif.Boruvka.Theorems
import Verif.Boruvka.Unique
import Verif.BruteForce.Batch
import Verif.BruteForce.Nearest
import Verif.BruteForce.Spatial
import Verif.Construction.Height
import Verif.Construction.Int
import Verif.Construction.IntTraversal
import Verif.Construction.Keys
import Verif.Construction.Theorems
import Verif.Construction.Unique
import Verif.Crs.IntTheorems
import Verif.Crs.Theorems
import Verif.Dbscan.Ignored
import Verif.Dbscan.Theorems
import Verif.Dbscan.Weak
import Verif.Dendrogram.Theorems
import Verif.DenseBox.Geometry
import Verif.DenseBox.Grid
import Verif.DenseBox.Reorder
import Verif.DenseBox.Theorems
import Verif.DenseBox.Weak
import Verif.DistDbscan.Compress
import Verif.DistDbscan.Defect
import Verif.DistDbscan.Euclid
import Verif.DistDbscan.Gather
import Verif.DistDbscan.MergeTheorems
import Verif.DistDbscan.Run
import Verif.DistDbscan.Theorems
import Verif.Distributed.Bounds
import Verif.Distributed.Bytes
import Verif.Distributed.Closest
import Verif.Distributed.Exchange
import Verif.Distributed.Factors
import Verif.Distributed.Nearest
import Verif.Distributed.Spatial
import Verif.Distributed.Theorems
import Verif.Euclid.Attach
import Verif.Euclid.Cloud
import Verif.Euclid.Crs
import Verif.Euclid.Distributed
import Verif.Euclid.Hdbscan
import Verif.Euclid.Lemmas
import Verif.Euclid.Rays
import Verif.Euclid.RaysNegative
import Verif.Euclid.Tetrahedra
import Verif.Euclid.Theorems
import Verif.Euclid.Triangles
import Verif.Fp.Accuracy
import Verif.Fp.AnyGeometry
import Verif.Fp.Attach
import Verif.Fp.BruteForce
import Verif.Fp.Cloud
import Verif.Fp.CloudAccuracy
import Verif.Fp.Curve
import Verif.Fp.CurveBalls
import Verif.Fp.CurveExact
import Verif.Fp.CurveKdops
import Verif.Fp.DenseBox
import Verif.Fp.DenseBoxLimits
import Verif.Fp.DenseNan
import Verif.Fp.DistDbscan
import Verif.Fp.DistDbscanLimits
import Verif.Fp.Distributed
import Verif.Fp.DistributedBoxes
import Verif.Fp.DistributedGrid
import Verif.Fp.DistributedLimits
import Verif.Fp.EmptyBoxes
import Verif.Fp.Examples
import Verif.Fp.Hdbscan
import Verif.Fp.Infinite
import Verif.Fp.Kdop
import Verif.Fp.Limits
import Verif.Fp.Nan
import Verif.Fp.NanDbscan
import Verif.Fp.NanLimits
import Verif.Fp.Next
import Verif.Fp.Ray
import Verif.Fp.RayTheorems
import Verif.Fp.Theorems
import Verif.Fp.Valid
import Verif.Geometry.Barycentric
import Verif.Geometry.BoxTriangle
import Verif.Geometry.BoxTriangleExact
import Verif.Geometry.ClosestPoint
import Verif.Geometry.DegenerateTetrahedron
import Verif.Geometry.DegenerateTriangle
import Verif.Geometry.Distance
import Verif.Geometry.Ellipsoid
import Verif.Geometry.Expand
import Verif.Geometry.Kdop
import Verif.Geometry.KdopNormals
import Verif.Geometry.Ray
import Verif.Geometry.RayExact
import Verif.Geometry.RayTriangleTheorems
import Verif.Geometry.Segments
import Verif.Graph.Basic
import Verif.Graph.Optimal
import Verif.Hdbscan.Cut
import Verif.Hdbscan.Finite
import Verif.Hdbscan.InvarianceTheorems
import Verif.Hdbscan.Levels
import Verif.Hdbscan.Theorems
import Verif.Hdbscan.Tree
import Verif.Hdbscan.Unique
import Verif.Heap.Theorems
import Verif.Interp.Checks
import Verif.Interp.Crbf
import Verif.Interp.CrbfMono
import Verif.Interp.Degenerate
import Verif.Interp.EchelonDefect
import Verif.Interp.EchelonTheorems
import Verif.Interp.Search
import Verif.Interp.SvdAccTheorems
import Verif.Interp.SvdFloatTheorems
import Verif.Interp.SvdTheorems
import Verif.Interp.Theorems
import Verif.Interp.Tolerance
import Verif.Labels.Theorems
import Verif.Lifetime.Theorems
import Verif.Morton.Theorems
import Verif.Mpi.Refinement
import Verif.Mpi.Rounds
import Verif.Mpi.Theorems
import Verif.Mpi.UserTheorems
import Verif.Mst.Edge
import Verif.Nearest.BatchTheorems
import Verif.Nearest.Nan
import Verif.Nearest.Spec
import Verif.Nearest.Theorems
import Verif.Neighbor.Theorems
import Verif.Ordered.Theorems
import Verif.Perm.Theorems
import Verif.Shared.Lemmas
import Verif.StdAlg.Lemmas
import Verif.StdAlg.Reduce
import Verif.StdAlg.Theorems
import Verif.Traversal.AnyPredicate
import Verif.Traversal.Callback
import Verif.Traversal.Theorems
import Verif.Traversal.Weak
import Verif.UnionFind.Theorems
import Verif.UnionFind.WeakTheorems
import Verif.Verify.Distributed
import Verif.Verify.DistributedDbscan
import Verif.Verify.Theorems
import Verif.Viz.Lemmas
import Verif.Viz.Theorems

/-!
# Axioms of the property theorems

One line for each theorem named in `MANIFEST.json`. Every line prints a subset of `propext`, `Classical.choice`
and `Quot.sound`.
-/

#print axioms ArborX.Traversal.spatial_query_exact
#print axioms ArborX.Traversal.spatial_query
#print axioms ArborX.Traversal.spatial_query_any
#print axioms ArborX.BVH.build_wellFormed
#print axioms ArborX.Construction.no_fault
#print axioms ArborX.Construction.wait_free
#print axioms ArborX.Construction.exists_complete
#print axioms ArborX.Construction.construction_correct
#print axioms ArborX.Construction.construction_cartesian
#print axioms ArborX.Construction.memory_schedule_independent
#print axioms ArborX.BVH.build_schedule_independent
#print axioms ArborX.Traversal.construction_every_code_partial
#print axioms ArborX.Construction.validKeys_of_sorted
#print axioms ArborX.Traversal.full_width_codes_hang
#print axioms ArborX.Morton.morton64_valid
#print axioms ArborX.Morton.morton32_valid
#print axioms ArborX.Morton.morton64_1d_faults
#print axioms ArborX.Nearest.nearest_query
#print axioms ArborX.Nearest.nearest_query_any
#print axioms ArborX.Nearest.nearest_query_single
#print axioms ArborX.Nearest.nearest_query_finite
#print axioms ArborX.Nearest.IsKNearest.length
#print axioms ArborX.Nearest.no_stack_overflow_partial
#print axioms ArborX.Nearest.stack_suffices_codes
#print axioms ArborX.Nearest.stack_suffices_small
#print axioms ArborX.Nearest.stack_suffices_groups
#print axioms ArborX.Construction.height_bound
#print axioms ArborX.Nearest.stack_overflow
#print axioms ArborX.Ordered.ordered_query_partial
#print axioms ArborX.Ordered.ordered_query_all_hit
#print axioms ArborX.Ordered.ordered_small
#print axioms ArborX.Ordered.ordered_few_hits
#print axioms ArborX.Ordered.ordered_spurious_call
#print axioms ArborX.Ordered.ordered_buffer_overflow
#print axioms ArborX.Traversal.half_traversal_exact
#print axioms ArborX.Crs.crs_query
#print axioms ArborX.Crs.crs_query_bvh
#print axioms ArborX.Crs.crs_spatial
#print axioms ArborX.Crs.crs_nearest
#print axioms ArborX.Neighbor.half_neighbor_list
#print axioms ArborX.Neighbor.full_neighbor_list
#print axioms ArborX.Neighbor.expand_half_to_full
#print axioms ArborX.Neighbor.half_terminates
#print axioms ArborX.Neighbor.full_terminates
#print axioms ArborX.Neighbor.expand_terminates
#print axioms ArborX.Fp.svd_float_accurate
#print axioms ArborX.Fp.svd_float64_accurate
#print axioms ArborX.Fp.svd_float32_accurate
#print axioms ArborX.Fp.Ieee.wide
#print axioms ArborX.Interp.mls_error_positions_partial
#print axioms ArborX.Interp.mls_defect_tolerance
#print axioms ArborX.Fp.svd_float_defect_tolerance
#print axioms ArborX.Lifetime.communicator_lifetime
#print axioms ArborX.Lifetime.no_communicator_leaks
#print axioms ArborX.Lifetime.same_calls
#print axioms ArborX.Fp.position_defined_iff
#print axioms ArborX.Fp.values_positions_defined_iff
#print axioms ArborX.Fp.points_positions_defined_iff
#print axioms ArborX.Fp.value_position_defined_partial
#print axioms ArborX.Fp.predicate_position_defined_partial
#print axioms ArborX.Fp.position_interleaves_partial
#print axioms ArborX.Fp.position_top_bit_partial
#print axioms ArborX.Fp.centroid_between_partial
#print axioms ArborX.Fp.empty_tree_position
#print axioms ArborX.Fp.nan_position
#print axioms ArborX.Fp.flushed_position
#print axioms ArborX.Fp.ball_positions_defined_iff
#print axioms ArborX.Fp.infinite_ball_positions
#print axioms ArborX.Fp.kdop_position_eq_box
#print axioms ArborX.Fp.kdop_position_defined_partial
#print axioms ArborX.Fp.morton_curves_fine
#print axioms ArborX.Fp.morton_curves_ok_one
#print axioms ArborX.Fp.valid_point_iff
#print axioms ArborX.Fp.valid_sphere_iff
#print axioms ArborX.Fp.valid_box_iff
#print axioms ArborX.Fp.valid_box_extent_iff
#print axioms ArborX.Fp.flushed_box_not_valid
#print axioms ArborX.Fp.flat_box_not_valid
#print axioms ArborX.Fp.wide_box_not_valid
#print axioms ArborX.Fp.valid_box_meets
#print axioms ArborX.Fp.eq_point_iff
#print axioms ArborX.Fp.eq_point_iff_eq
#print axioms ArborX.Fp.eq_box_iff_eq
#print axioms ArborX.Fp.eq_sphere_iff_eq
#print axioms ArborX.Fp.eq_ray_same_hits_partial
#print axioms ArborX.Fp.eq_ray_different_hits
#print axioms ArborX.Reduce.min_reduce_exact
#print axioms ArborX.Reduce.max_reduce_exact
#print axioms ArborX.Reduce.minmax_reduce_exact
#print axioms ArborX.Reduce.minmax_reduce_finite
#print axioms ArborX.Reduce.min_reduce_infinite
#print axioms ArborX.Reduce.distributor_reduces
#print axioms ArborX.Fp.dense_cells_finite
#print axioms ArborX.Fp.dense_cells_nan
#print axioms ArborX.Fp.dense_cells_infinite
#print axioms ArborX.Fp.dense_cells_agree
#print axioms ArborX.Interp.mls_checks_partial
#print axioms ArborX.Interp.mls_checks_coincident_partial
#print axioms ArborX.Interp.mls_check_fails
#print axioms ArborX.Verify.verify_iff
#print axioms ArborX.Verify.verify_star_iff
#print axioms ArborX.Verify.verify_fault
#print axioms ArborX.Verify.found_tree
#print axioms ArborX.Verify.verify_fdbscan
#print axioms ArborX.Verify.verifyDistributed_partial
#print axioms ArborX.Verify.verifyDistributed_accepts
#print axioms ArborX.Verify.verifyDistributed_wrong
#print axioms ArborX.Verify.verify_distributed_dbscan
#print axioms ArborX.Verify.found_distributed
#print axioms ArborX.Euclid.point_query_tetrahedra_partial
#print axioms ArborX.Euclid.nearest_tetrahedra_partial
#print axioms ArborX.Euclid.flat_tetrahedron_reported
#print axioms ArborX.Geometry.intersects_point_tetrahedron_exact
#print axioms ArborX.Geometry.distance_point_tetrahedron_exact
#print axioms ArborX.Geometry.barycentric_tetrahedron_exact
#print axioms ArborX.BruteForce.brute_force_spatial_partial
#print axioms ArborX.BruteForce.brute_force_spatial_large_partial
#print axioms ArborX.BruteForce.brute_force_spatial_wrong
#print axioms ArborX.BruteForce.brute_force_teams_overflow
#print axioms ArborX.Fp.box_query_any_corners_partial
#print axioms ArborX.Fp.box_query_meaning
#print axioms ArborX.Fp.empty_boxes_not_reported
#print axioms ArborX.Fp.empty_boxes_not_near_partial
#print axioms ArborX.Fp.empty_box_position
#print axioms ArborX.Fp.float_double_wide
#print axioms ArborX.Fp.lone_empty_box_near
#print axioms ArborX.Fp.inverted_box_missed
#print axioms ArborX.BruteForce.brute_force_nearest_partial
#print axioms ArborX.BruteForce.brute_force_nearest_ok
#print axioms ArborX.BruteForce.brute_force_nearest_wrong
#print axioms ArborX.Heap.push_correct
#print axioms ArborX.Heap.pop_correct
#print axioms ArborX.Heap.popPush_correct
#print axioms ArborX.Heap.queue_refines_multiset
#print axioms ArborX.Heap.queue_never_faults
#print axioms ArborX.Heap.makeHeap_correct
#print axioms ArborX.Heap.sortHeap_correct
#print axioms ArborX.StdAlg.nth_element_correct
#print axioms ArborX.StdAlg.nth_element_last
#print axioms ArborX.StdAlg.upper_bound_correct
#print axioms ArborX.StdAlg.lower_bound_correct
#print axioms ArborX.Morton.expand32_spec
#print axioms ArborX.Morton.expand64_spec
#print axioms ArborX.Morton.morton32_interleaves
#print axioms ArborX.Morton.morton64_interleaves
#print axioms ArborX.Morton.morton32_eq_iff
#print axioms ArborX.Morton.morton64_eq_iff
#print axioms ArborX.Morton.morton32_mono
#print axioms ArborX.Morton.morton64_mono
#print axioms ArborX.Morton.morton64_cell
#print axioms ArborX.Morton.IsInterleaving.injective
#print axioms ArborX.Morton.IsInterleaving.mono
#print axioms ArborX.Perm.applyPermutation_correct
#print axioms ArborX.Perm.applyInversePermutation_correct
#print axioms ArborX.Perm.permutation_round_trip
#print axioms ArborX.Perm.permutation_keeps_elements
#print axioms ArborX.Perm.applyPermutationInPlace_correct
#print axioms ArborX.Perm.sortObjects_correct
#print axioms ArborX.UF.union_find_components
#print axioms ArborX.UF.union_find_wait_free
#print axioms ArborX.UF.union_find_schedule_independent
#print axioms ArborX.UF.no_fault
#print axioms ArborX.UF.complete_spec
#print axioms ArborX.Dbscan.fdbscan_correct
#print axioms ArborX.Dbscan.fdbscan_terminates
#print axioms ArborX.Dbscan.canonical_unique
#print axioms ArborX.Dbscan.fdbscan_throws
#print axioms ArborX.Dbscan.fdbscan_star_correct
#print axioms ArborX.DenseBox.grid_cells_partial
#print axioms ArborX.DenseBox.same_cell_near
#print axioms ArborX.DenseBox.densebox_throws
#print axioms ArborX.DenseBox.densebox_correct
#print axioms ArborX.DenseBox.densebox_star_correct
#print axioms ArborX.DenseBox.densebox_terminates
#print axioms ArborX.DenseBox.densebox_agrees
#print axioms ArborX.DenseBox.densebox_grid_correct_partial
#print axioms ArborX.DenseBox.grid_aliasing
#print axioms ArborX.DenseBox.grid_wrong_box
#print axioms ArborX.DenseBox.grid_int_overflow
#print axioms ArborX.DenseBox.densebox_face_defect
#print axioms ArborX.Boruvka.mst_correct_partial
#print axioms ArborX.Boruvka.mst_height_partial
#print axioms ArborX.Boruvka.mst_stack_overflow
#print axioms ArborX.Boruvka.mst_small
#print axioms ArborX.Graph.light_tree_optimal
#print axioms ArborX.Dendrogram.dendrogram_correct
#print axioms ArborX.Dendrogram.dendrogram_single_linkage
#print axioms ArborX.Dendrogram.dendrogram_no_edges
#print axioms ArborX.Mst.directed_edge_roundtrip
#print axioms ArborX.Mst.directed_edge_order
#print axioms ArborX.Mst.directed_edge_key_inj
#print axioms ArborX.Mst.directed_edge_lt_default
#print axioms ArborX.Mst.weighted_edge_order
#print axioms ArborX.Labels.findParents_correct
#print axioms ArborX.Labels.reduceLabels_correct
#print axioms ArborX.Labels.reduceLabels_wait_free
#print axioms ArborX.Distributed.distributor_delivers
#print axioms ArborX.Distributed.distributor_delivers_batches
#print axioms ArborX.Distributed.deliver_perm
#print axioms ArborX.Distributed.distributed_spatial
#print axioms ArborX.Distributed.distributed_spatial_pure
#print axioms ArborX.Distributed.distributed_nearest_partial
#print axioms ArborX.Distributed.distributed_nearest_infinite
#print axioms ArborX.Distributed.distributed_nearest_empty_aborts
#print axioms ArborX.DistDbscan.merge_labels_partial
#print axioms ArborX.DistDbscan.merge_unique_partial
#print axioms ArborX.DistDbscan.merge_loses_labels
#print axioms ArborX.Geometry.bounding_box_least
#print axioms ArborX.Geometry.bounding_box_deterministic
#print axioms ArborX.Geometry.sequential_iters
#print axioms ArborX.Geometry.intersects_point_box
#print axioms ArborX.Geometry.intersects_box_box
#print axioms ArborX.Geometry.intersects_sphere_box
#print axioms ArborX.Geometry.intersects_sphere_point
#print axioms ArborX.Geometry.intersects_sphere_sphere
#print axioms ArborX.Geometry.intersects_sphere_triangle_partial
#print axioms ArborX.Geometry.intersects_sphere_triangle_exact
#print axioms ArborX.Geometry.distance_point_point
#print axioms ArborX.Geometry.distance_point_box
#print axioms ArborX.Geometry.distance_box_box
#print axioms ArborX.Geometry.distance_sphere_box
#print axioms ArborX.Geometry.distance_point_sphere
#print axioms ArborX.Geometry.distance_sphere_sphere
#print axioms ArborX.Geometry.distance_lower_bound
#print axioms ArborX.Geometry.distance_point_segment
#print axioms ArborX.Geometry.distance_point_tetrahedron
#print axioms ArborX.Geometry.distance_point_triangle_partial
#print axioms ArborX.Geometry.distance_point_triangle_exact
#print axioms ArborX.Geometry.kdop_contains
#print axioms ArborX.Geometry.kdop_least
#print axioms ArborX.Geometry.kdop_halfspaces
#print axioms ArborX.Geometry.intersects_point_kdop
#print axioms ArborX.Geometry.intersects_kdop_kdop
#print axioms ArborX.Geometry.intersects_kdop_box
#print axioms ArborX.Geometry.intersects_kdop_box_slab
#print axioms ArborX.Geometry.box_expand_kdop
#print axioms ArborX.Geometry.kdop_to_box
#print axioms ArborX.Geometry.intersects_box_triangle_exact_partial
#print axioms ArborX.Geometry.intersects_box_triangle_level_partial
#print axioms ArborX.Geometry.intersects_box_triangle_sound_partial
#print axioms ArborX.Geometry.intersects_box_triangle_wrong
#print axioms ArborX.Geometry.intersects_box_triangle_wrong_positive
#print axioms ArborX.Geometry.intersects_ray_box_partial
#print axioms ArborX.Geometry.distance_ray_box_partial
#print axioms ArborX.Geometry.intersects_ray_box_negative_zero
#print axioms ArborX.Geometry.intersects_ray_box_exact
#print axioms ArborX.Geometry.distance_ray_box_exact
#print axioms ArborX.Geometry.intersects_segment_segment
#print axioms ArborX.Geometry.intersects_segment_box
#print axioms ArborX.Geometry.closest_point_triangle_partial
#print axioms ArborX.Geometry.closest_point_triangle_nan
#print axioms ArborX.Geometry.closest_point_triangle_exact
#print axioms ArborX.Geometry.closest_point_segment
#print axioms ArborX.Geometry.barycentric_triangle
#print axioms ArborX.Geometry.intersects_point_triangle
#print axioms ArborX.Geometry.barycentric_tetrahedron
#print axioms ArborX.Geometry.intersects_point_tetrahedron
#print axioms ArborX.Geometry.intersects_ellipsoid_point
#print axioms ArborX.Geometry.intersects_ellipsoid_segment
#print axioms ArborX.Geometry.intersects_ellipsoid_box_2d
#print axioms ArborX.Geometry.intersects_ellipsoid_box_3d_sound
#print axioms ArborX.Geometry.intersects_ellipsoid_box_3d_partial
#print axioms ArborX.Geometry.intersects_ellipsoid_box_3d_wrong
#print axioms ArborX.Interp.polynomial_basis
#print axioms ArborX.Interp.mls_error
#print axioms ArborX.Interp.mls_reproduces
#print axioms ArborX.Interp.CRBF.evaluate_pos
#print axioms ArborX.Interp.CRBF.evaluate_zero
#print axioms ArborX.Perm.computeOffsets_correct
#print axioms ArborX.Perm.offsets_groups
#print axioms ArborX.DenseBox.reorder_correct
#print axioms ArborX.DenseBox.reorder_perm
#print axioms ArborX.DenseBox.reorder_wait_free
#print axioms ArborX.Distributed.closestFactors_correct
#print axioms ArborX.Traversal.spatial_query_single
#print axioms ArborX.Traversal.spatial_query_empty
#print axioms ArborX.Traversal.per_thread_eq
#print axioms ArborX.Traversal.per_thread_small_faults
#print axioms ArborX.Boruvka.core_distance_correct
#print axioms ArborX.Boruvka.core_unique
#print axioms ArborX.Boruvka.mutual_reachability
#print axioms ArborX.Boruvka.mst_k_correct_partial
#print axioms ArborX.Geometry.overlap_distance_sphere
#print axioms ArborX.DistDbscan.distributed_dbscan_sound_partial
#print axioms ArborX.DistDbscan.distributed_dbscan_partial
#print axioms ArborX.DistDbscan.distributed_dbscan_defect
#print axioms ArborX.DistDbscan.euclid_geometry
#print axioms ArborX.DistDbscan.compress_inOrder_partial
#print axioms ArborX.DistDbscan.compress_noNoise_partial
#print axioms ArborX.DistDbscan.compress_race
#print axioms ArborX.Interp.symmetricSVD_spec
#print axioms ArborX.Interp.mls_keeps_constant
#print axioms ArborX.Interp.mls_degenerate_partial
#print axioms ArborX.Interp.rowEchelon_independent
#print axioms ArborX.Interp.rowEchelon_sources
#print axioms ArborX.Interp.rowEchelon_defect
#print axioms ArborX.Euclid.spatial_query_geometry_partial
#print axioms ArborX.Euclid.intersects_exact
#print axioms ArborX.Euclid.box_query_triangles_partial
#print axioms ArborX.Euclid.box_query_triangle_missed
#print axioms ArborX.Euclid.nearest_query_geometry
#print axioms ArborX.Euclid.distance_exact
#print axioms ArborX.Euclid.stack_fits_partial
#print axioms ArborX.Interp.mls_interpolation
#print axioms ArborX.Interp.search_rows
#print axioms ArborX.Euclid.dbscan_points
#print axioms ArborX.Euclid.dbscan_points_terminates
#print axioms ArborX.Euclid.mst_points_partial
#print axioms ArborX.Euclid.neighbor_list_points
#print axioms ArborX.Geometry.ray_triangle_no_miss_partial
#print axioms ArborX.Geometry.ray_triangle_parameter
#print axioms ArborX.Geometry.ray_triangle_near
#print axioms ArborX.Geometry.ray_triangle_exact_partial
#print axioms ArborX.Geometry.ray_triangle_defect_small
#print axioms ArborX.Geometry.ray_triangle_defect_edge
#print axioms ArborX.Geometry.segment_triangle_no_miss_partial
#print axioms ArborX.Geometry.segment_triangle_exact_partial
#print axioms ArborX.Geometry.segment_triangle_coplanar_partial
#print axioms ArborX.Geometry.segment_triangle_defect
#print axioms ArborX.Hdbscan.hdbscan_correct_partial
#print axioms ArborX.Hdbscan.hmst_correct_partial
#print axioms ArborX.Hdbscan.hmst_k_correct_partial
#print axioms ArborX.Hdbscan.unionFindDendrogram_correct
#print axioms ArborX.Hdbscan.hdbscan_small
#print axioms ArborX.Euclid.hdbscan_points_partial
#print axioms ArborX.Euclid.distributed_spatial_geometry
#print axioms ArborX.Euclid.distributed_nearest_geometry_partial
#print axioms ArborX.Euclid.top_stack_fits
#print axioms ArborX.Euclid.crs_spatial_geometry
#print axioms ArborX.Euclid.crs_nearest_geometry
#print axioms ArborX.Fp.spatial_query_float
#print axioms ArborX.Fp.box_query_float
#print axioms ArborX.Fp.sphere_values_hidden
#print axioms ArborX.Fp.nearest_query_float
#print axioms ArborX.Fp.nearest_overflow
#print axioms ArborX.Fp.distance_accuracy
#print axioms ArborX.Fp.ball_query_accuracy
#print axioms ArborX.Fp.nearest_query_accuracy
#print axioms ArborX.Fp.Ieee.accurate
#print axioms ArborX.Fp.float_accurate
#print axioms ArborX.Fp.double_accurate
#print axioms ArborX.Fp.dbscan_float
#print axioms ArborX.Fp.dbscan_float_terminates
#print axioms ArborX.Fp.dbscan_float_clear
#print axioms ArborX.Fp.neighbor_list_float
#print axioms ArborX.Fp.mst_float_partial
#print axioms ArborX.Fp.mst_float_accuracy
#print axioms ArborX.Fp.hdbscan_float_partial
#print axioms ArborX.Fp.Cloud.bits_ok
#print axioms ArborX.Fp.distributed_spatial_float
#print axioms ArborX.Fp.distributed_nearest_float_partial
#print axioms ArborX.Fp.distributed_nearest_box_partial
#print axioms ArborX.Fp.distributed_nearest_box_integers_partial
#print axioms ArborX.Fp.box_query_lost
#print axioms ArborX.Fp.Ieee.exists_next
#print axioms ArborX.Fp.Ieee.spaced
#print axioms ArborX.Euclid.ray_query_boxes_partial
#print axioms ArborX.Euclid.ray_query_triangles_partial
#print axioms ArborX.Euclid.ray_query_exact_partial
#print axioms ArborX.Euclid.ray_nearest_partial
#print axioms ArborX.Euclid.ray_ordered_partial
#print axioms ArborX.Euclid.ray_nearest_single
#print axioms ArborX.Euclid.ray_query_negative_zero
#print axioms ArborX.Euclid.ray_query_negative_zero_nothing
#print axioms ArborX.Fp.brute_force_geometry_partial
#print axioms ArborX.Fp.brute_force_tree_agree_partial
#print axioms ArborX.Fp.brute_force_nearest_agree_partial
#print axioms ArborX.Fp.brute_force_nearest_geometry_partial
#print axioms ArborX.Fp.distributed_dbscan_float_sound_partial
#print axioms ArborX.Fp.distributed_dbscan_float_partial
#print axioms ArborX.Fp.exact_reaches
#print axioms ArborX.Fp.distributed_dbscan_float_defect
#print axioms ArborX.Nearest.nearest_batch_partial
#print axioms ArborX.Nearest.nearest_batch_independent_partial
#print axioms ArborX.BruteForce.brute_force_batch_partial
#print axioms ArborX.Shared.independent
#print axioms ArborX.Nearest.nearest_batch_overflow
#print axioms ArborX.Viz.visit_all_partial
#print axioms ArborX.Viz.graphviz_partial
#print axioms ArborX.Viz.fits_small
#print axioms ArborX.Viz.fits_codes
#print axioms ArborX.Viz.visit_stack_overflow
#print axioms ArborX.Viz.visit_all_small
#print axioms ArborX.Crs.Int32.crs_int_partial
#print axioms ArborX.Crs.Int32.crs_int_rows_partial
#print axioms ArborX.Crs.Int32.crs_int_spatial_partial
#print axioms ArborX.Crs.Int32.crs_results_lost
#print axioms ArborX.Crs.Int32.crs_spatial_lost
#print axioms ArborX.Fp.densebox_float_clear_partial
#print axioms ArborX.Fp.densebox_float_joins
#print axioms ArborX.Fp.densebox_float_splits
#print axioms ArborX.Traversal.weak_build
#print axioms ArborX.Traversal.weak_construction
#print axioms ArborX.Traversal.weak_spatial_query
#print axioms ArborX.Traversal.weak_without_order
#print axioms ArborX.UF.weak_union_find_components
#print axioms ArborX.UF.weak_union_find_wait_free
#print axioms ArborX.UF.weak_contains_strong
#print axioms ArborX.UF.union_find_serial_two_threads
#print axioms ArborX.Dbscan.weak_fdbscan_correct
#print axioms ArborX.Dbscan.weak_fdbscan_terminates
#print axioms ArborX.DenseBox.weak_densebox_correct
#print axioms ArborX.DenseBox.weak_densebox_terminates
#print axioms ArborX.Dbscan.weak_fdbscan_throws
#print axioms ArborX.DenseBox.weak_densebox_throws
#print axioms ArborX.Traversal.callback_batch
#print axioms ArborX.Traversal.callback_batch_exact
#print axioms ArborX.Traversal.callback_batch_reduce
#print axioms ArborX.Traversal.callback_batch_ends
#print axioms ArborX.Fp.spatial_query_kdop
#print axioms ArborX.Fp.box_query_kdop
#print axioms ArborX.Fp.kdop_query_points
#print axioms ArborX.Boruvka.mst_deterministic_partial
#print axioms ArborX.Boruvka.mst_k_deterministic_partial
#print axioms ArborX.Boruvka.mst_weights_deterministic_partial
#print axioms ArborX.Boruvka.mst_k_weights_deterministic_partial
#print axioms ArborX.Boruvka.mst_deterministic_distinct_partial
#print axioms ArborX.Boruvka.mst_sort_dependent
#print axioms ArborX.Distributed.bounds_least
#print axioms ArborX.Distributed.weak_bounds_least
#print axioms ArborX.Distributed.brute_force_bounds_least
#print axioms ArborX.Distributed.distributed_bounds_least
#print axioms ArborX.Distributed.distributed_size_partial
#print axioms ArborX.Distributed.distributed_size_overflow
#print axioms ArborX.Euclid.bounds_geometry
#print axioms ArborX.Interp.crbf_decreasing
#print axioms ArborX.Interp.mls_nearer_weighs_more
#print axioms ArborX.Euclid.radius_search
#print axioms ArborX.Euclid.nearest_search
#print axioms ArborX.Euclid.attach_indices_narrow
#print axioms ArborX.Fp.radius_search_float
#print axioms ArborX.Fp.radius_search_float_exact
#print axioms ArborX.Fp.nearest_search_float
#print axioms ArborX.Hdbscan.hdbscan_deterministic_partial
#print axioms ArborX.Hdbscan.IsDendrogram.heights_perm
#print axioms ArborX.Hdbscan.IsDendrogram.count
#print axioms ArborX.Fp.ray_query_float_partial
#print axioms ArborX.Fp.ray_nearest_float_partial
#print axioms ArborX.Fp.ray_ordered_float_partial
#print axioms ArborX.Fp.ray_box_complete
#print axioms ArborX.Fp.ray_box_sound
#print axioms ArborX.Fp.ray_query_nan
#print axioms ArborX.Euclid.dbscan_is_cut_partial
#print axioms ArborX.Fp.dbscan_is_cut_float_partial
#print axioms ArborX.Euclid.dbscan_monotone
#print axioms ArborX.Fp.dbscan_float_monotone
#print axioms ArborX.Fp.any_geometry_query_float_partial
#print axioms ArborX.Fp.any_geometry_nearest_float_partial
#print axioms ArborX.Fp.box_triangle_query_float
#print axioms ArborX.Fp.triangle_values_hidden
#print axioms ArborX.Hdbscan.dbscan_invariant
#print axioms ArborX.Hdbscan.mst_invariant_partial
#print axioms ArborX.Hdbscan.hdbscan_invariant_partial
#print axioms ArborX.Hdbscan.same_distances_reordered
#print axioms ArborX.Hdbscan.same_distances_moved
#print axioms ArborX.BVH.int_construction
#print axioms ArborX.BVH.int_construction_overflow
#print axioms ArborX.BVH.int_query
#print axioms ArborX.BVH.int_query_debug_overflow
#print axioms ArborX.BVH.int_accesses
#print axioms ArborX.BVH.int_nearest_query
#print axioms ArborX.BVH.int_ordered_query
#print axioms ArborX.BVH.int_half_traversal
#print axioms ArborX.BVH.int_traversals_debug_overflow
#print axioms ArborX.Fp.intersects_query_nan
#print axioms ArborX.Fp.ball_query_nan
#print axioms ArborX.Fp.nearest_query_nan_points
#print axioms ArborX.Nearest.nearest_query_nan
#print axioms ArborX.Fp.nan_value_depends
#print axioms ArborX.Fp.infinite_ball_misses
#print axioms ArborX.Fp.dbscan_nan
#print axioms ArborX.Fp.dbscan_nan_terminates
#print axioms ArborX.Fp.dbscan_nan_ignored
#print axioms ArborX.Boruvka.core_distance_infinite
#print axioms ArborX.Boruvka.mst_connected_partial
#print axioms ArborX.Boruvka.mst_disconnected
#print axioms ArborX.Boruvka.mst_k_infinite_partial
#print axioms ArborX.Hdbscan.hdbscan_infinite_partial
#print axioms ArborX.Fp.mst_float_infinite_partial
#print axioms ArborX.Fp.hdbscan_float_infinite_partial
#print axioms ArborX.Fp.far_apart_fault
#print axioms ArborX.Distributed.create_int_iff
#print axioms ArborX.Distributed.distributor_bytes
#print axioms ArborX.Distributed.distributor_delivers_bytes_partial
#print axioms ArborX.Distributed.distributor_bytes_iff
#print axioms ArborX.Distributed.distributor_loses
#print axioms ArborX.DistDbscan.gather_bytes_partial
#print axioms ArborX.DistDbscan.gather_loses
#print axioms ArborX.DistDbscan.gather_overflow
#print axioms ArborX.Async.crs_query_async
#print axioms ArborX.Async.buffer_layout_async
#print axioms ArborX.Async.sort_layout_async
#print axioms ArborX.Async.exchange_async
#print axioms ArborX.Async.exchange_initialised
#print axioms ArborX.Async.gather_boxes_async
#print axioms ArborX.Async.merge_pairs_async
#print axioms ArborX.Async.boruvka_async
#print axioms ArborX.Async.dendrogram_async
#print axioms ArborX.Async.bounds_fenced_partial
#print axioms ArborX.Async.bounds_unfenced
#print axioms ArborX.Async.bounds_unfenced_race
#print axioms ArborX.Async.distributed_tree_stale
#print axioms ArborX.Async.distributed_tree_fenced
#print axioms ArborX.Async.stale_rank_missed
#print axioms ArborX.Async.labels_dangling
#print axioms ArborX.Async.labels_fenced
#print axioms ArborX.Async.safe_deterministic
#print axioms ArborX.Mpi.distributed_spatial_processes
#print axioms ArborX.Mpi.distributed_spatial_pure_processes
#print axioms ArborX.Mpi.distributed_nearest_processes
#print axioms ArborX.Mpi.distributed_calls_processes
#print axioms ArborX.Mpi.distributed_dbscan_processes_partial
#print axioms ArborX.Mpi.distributed_dbscan_ends_partial
#print axioms ArborX.Mpi.user_message_defect
#print axioms ArborX.Mpi.one_process_fails
#print axioms ArborX.Mpi.runs_allEnd
#print axioms ArborX.Mpi.calls_are_collective
#print axioms ArborX.Mpi.distributed_spatial_among_user
#print axioms ArborX.Mpi.distributed_nearest_among_user
#print axioms ArborX.Mpi.distributed_dbscan_among_user_partial
#print axioms ArborX.Fp.svd_float_ends
#print axioms ArborX.Fp.svd_float32_ends
#print axioms ArborX.Fp.svd_float64_ends
#print axioms ArborX.Fp.Ieee.close
