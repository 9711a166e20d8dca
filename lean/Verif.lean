import Verif.Async.Functions
import Verif.Async.Lemmas
import Verif.Async.Model
import Verif.Async.Safe
import Verif.Async.Theorems
import Verif.Audit
import Verif.BVH.Build
import Verif.Boruvka.Core
import Verif.Boruvka.Determinism
import Verif.Boruvka.Edges
import Verif.Boruvka.Finite
import Verif.Boruvka.Isolated
import Verif.Boruvka.Iter
import Verif.Boruvka.Merge
import Verif.Boruvka.Model
import Verif.Boruvka.Search
import Verif.Boruvka.Theorems
import Verif.Boruvka.Unique
import Verif.BruteForce.Batch
import Verif.BruteForce.Model
import Verif.BruteForce.Nearest
import Verif.BruteForce.Spatial
import Verif.Construction.Height
import Verif.Construction.Int
import Verif.Construction.IntModel
import Verif.Construction.IntTraversal
import Verif.Construction.Invariant
import Verif.Construction.Keys
import Verif.Construction.Model
import Verif.Construction.Proofs
import Verif.Construction.Termination
import Verif.Construction.Theorems
import Verif.Construction.Unique
import Verif.Construction.Weak
import Verif.Construction.WeakModel
import Verif.Crs.IntLemmas
import Verif.Crs.IntModel
import Verif.Crs.IntTheorems
import Verif.Crs.Model
import Verif.Crs.Pass
import Verif.Crs.Theorems
import Verif.Dbscan.Finalize
import Verif.Dbscan.Ignored
import Verif.Dbscan.Labels
import Verif.Dbscan.Model
import Verif.Dbscan.Spec
import Verif.Dbscan.Theorems
import Verif.Dbscan.Weak
import Verif.Dbscan.WeakModel
import Verif.Dendrogram.Lemmas
import Verif.Dendrogram.Model
import Verif.Dendrogram.Theorems
import Verif.DenseBox.Count
import Verif.DenseBox.Geometry
import Verif.DenseBox.Grid
import Verif.DenseBox.Layout
import Verif.DenseBox.Model
import Verif.DenseBox.Reorder
import Verif.DenseBox.Stage
import Verif.DenseBox.Theorems
import Verif.DenseBox.Weak
import Verif.DenseBox.WeakModel
import Verif.DistDbscan.Assemble
import Verif.DistDbscan.Cluster
import Verif.DistDbscan.Compress
import Verif.DistDbscan.Defect
import Verif.DistDbscan.Euclid
import Verif.DistDbscan.Gather
import Verif.DistDbscan.GatherModel
import Verif.DistDbscan.Ghosts
import Verif.DistDbscan.Lost
import Verif.DistDbscan.Merge
import Verif.DistDbscan.MergeLemmas
import Verif.DistDbscan.MergeTheorems
import Verif.DistDbscan.Model
import Verif.DistDbscan.Resolve
import Verif.DistDbscan.Run
import Verif.DistDbscan.Spec
import Verif.DistDbscan.Theorems
import Verif.DistDbscan.Views
import Verif.Distributed.Bounds
import Verif.Distributed.ByteExchange
import Verif.Distributed.ByteModel
import Verif.Distributed.Bytes
import Verif.Distributed.Closest
import Verif.Distributed.Collect
import Verif.Distributed.Distributor
import Verif.Distributed.Exchange
import Verif.Distributed.Factors
import Verif.Distributed.Forward
import Verif.Distributed.Layouts
import Verif.Distributed.Nearest
import Verif.Distributed.NearestLemmas
import Verif.Distributed.NearestModel
import Verif.Distributed.NearestPhases
import Verif.Distributed.Query
import Verif.Distributed.Spatial
import Verif.Distributed.Theorems
import Verif.Euclid.Attach
import Verif.Euclid.Cloud
import Verif.Euclid.Crs
import Verif.Euclid.Distributed
import Verif.Euclid.Hdbscan
import Verif.Euclid.Lemmas
import Verif.Euclid.Model
import Verif.Euclid.Rays
import Verif.Euclid.RaysNegative
import Verif.Euclid.Tetrahedra
import Verif.Euclid.Theorems
import Verif.Euclid.Triangles
import Verif.Float.Round
import Verif.Fp.Accuracy
import Verif.Fp.AnyGeometry
import Verif.Fp.Attach
import Verif.Fp.BruteForce
import Verif.Fp.Cloud
import Verif.Fp.CloudAccuracy
import Verif.Fp.Curve
import Verif.Fp.CurveBalls
import Verif.Fp.CurveExact
import Verif.Fp.CurveKdops
import Verif.Fp.CurveModel
import Verif.Fp.DenseBox
import Verif.Fp.DenseBoxExample
import Verif.Fp.DenseBoxLimits
import Verif.Fp.DenseBoxModel
import Verif.Fp.DenseNan
import Verif.Fp.DenseNanModel
import Verif.Fp.DistDbscan
import Verif.Fp.DistDbscanLimits
import Verif.Fp.Distributed
import Verif.Fp.DistributedBoxes
import Verif.Fp.DistributedExamples
import Verif.Fp.DistributedGrid
import Verif.Fp.DistributedLimits
import Verif.Fp.EmptyBoxes
import Verif.Fp.Examples
import Verif.Fp.Hdbscan
import Verif.Fp.Ieee
import Verif.Fp.Infinite
import Verif.Fp.Kdop
import Verif.Fp.Lemmas
import Verif.Fp.Limits
import Verif.Fp.Model
import Verif.Fp.Nan
import Verif.Fp.NanDbscan
import Verif.Fp.NanLimits
import Verif.Fp.NanModel
import Verif.Fp.Next
import Verif.Fp.Ray
import Verif.Fp.RayTheorems
import Verif.Fp.Theorems
import Verif.Fp.Valid
import Verif.Fp.ValidModel
import Verif.Geometry.Barycentric
import Verif.Geometry.BoxTriangle
import Verif.Geometry.BoxTriangleExact
import Verif.Geometry.ClosestPoint
import Verif.Geometry.DegenerateTetrahedron
import Verif.Geometry.DegenerateTriangle
import Verif.Geometry.Distance
import Verif.Geometry.Ellipsoid
import Verif.Geometry.Expand
import Verif.Geometry.Kdop
import Verif.Geometry.KdopNormals
import Verif.Geometry.Lattice
import Verif.Geometry.Ray
import Verif.Geometry.RayExact
import Verif.Geometry.RayTriangle
import Verif.Geometry.RayTriangleTheorems
import Verif.Geometry.Segments
import Verif.Geometry.Spec
import Verif.Graph.Basic
import Verif.Graph.Optimal
import Verif.Hdbscan.Cut
import Verif.Hdbscan.Final
import Verif.Hdbscan.Finite
import Verif.Hdbscan.Hist
import Verif.Hdbscan.Invariance
import Verif.Hdbscan.InvarianceTheorems
import Verif.Hdbscan.Kernels
import Verif.Hdbscan.Levels
import Verif.Hdbscan.Linkage
import Verif.Hdbscan.Loop
import Verif.Hdbscan.Model
import Verif.Hdbscan.Order
import Verif.Hdbscan.Spec
import Verif.Hdbscan.Theorems
import Verif.Hdbscan.Tree
import Verif.Hdbscan.Unique
import Verif.Heap.Lemmas
import Verif.Heap.Model
import Verif.Heap.Spec
import Verif.Heap.Theorems
import Verif.Interp.Basis
import Verif.Interp.BasisLemmas
import Verif.Interp.Checks
import Verif.Interp.ChecksModel
import Verif.Interp.Coincident
import Verif.Interp.Crbf
import Verif.Interp.CrbfMono
import Verif.Interp.Degenerate
import Verif.Interp.Echelon
import Verif.Interp.EchelonDefect
import Verif.Interp.EchelonTheorems
import Verif.Interp.Kept
import Verif.Interp.Limit
import Verif.Interp.Mls
import Verif.Interp.Poly
import Verif.Interp.Search
import Verif.Interp.Singular
import Verif.Interp.Solve
import Verif.Interp.Svd
import Verif.Interp.SvdAccLemmas
import Verif.Interp.SvdAccNum
import Verif.Interp.SvdAccTheorems
import Verif.Interp.SvdFloat
import Verif.Interp.SvdFloatLemmas
import Verif.Interp.SvdFloatMeasure
import Verif.Interp.SvdFloatNum
import Verif.Interp.SvdFloatTheorems
import Verif.Interp.SvdLemmas
import Verif.Interp.SvdTheorems
import Verif.Interp.Theorems
import Verif.Interp.Tolerance
import Verif.Labels.Lemmas
import Verif.Labels.Model
import Verif.Labels.Shape
import Verif.Labels.Theorems
import Verif.Labels.Weak
import Verif.Layout
import Verif.Lifetime.Lemmas
import Verif.Lifetime.Model
import Verif.Lifetime.Spec
import Verif.Lifetime.Theorems
import Verif.Morton.Bits
import Verif.Morton.Model
import Verif.Morton.Theorems
import Verif.Mpi.Comms
import Verif.Mpi.Confluence
import Verif.Mpi.Isolation
import Verif.Mpi.Library
import Verif.Mpi.Model
import Verif.Mpi.Programs
import Verif.Mpi.Queries
import Verif.Mpi.Refinement
import Verif.Mpi.Rounds
import Verif.Mpi.Session
import Verif.Mpi.Simulation
import Verif.Mpi.Theorems
import Verif.Mpi.UserTheorems
import Verif.Mst.CoreSpec
import Verif.Mst.Edge
import Verif.Mst.FiniteSpec
import Verif.Mst.Spec
import Verif.Nearest.Batch
import Verif.Nearest.BatchTheorems
import Verif.Nearest.Lemmas
import Verif.Nearest.Model
import Verif.Nearest.Nan
import Verif.Nearest.NanModel
import Verif.Nearest.Spec
import Verif.Nearest.StackDepth
import Verif.Nearest.Theorems
import Verif.Neighbor.Lemmas
import Verif.Neighbor.Model
import Verif.Neighbor.Theorems
import Verif.Ordered.Lemmas
import Verif.Ordered.Model
import Verif.Ordered.Theorems
import Verif.Perm.Model
import Verif.Perm.Theorems
import Verif.Shared.Buffer
import Verif.Shared.Heap
import Verif.Shared.Lemmas
import Verif.Shared.Model
import Verif.StdAlg.Lemmas
import Verif.StdAlg.Model
import Verif.StdAlg.Reduce
import Verif.StdAlg.ReduceModel
import Verif.StdAlg.Theorems
import Verif.Traversal.AnyPredicate
import Verif.Traversal.Bounded
import Verif.Traversal.Callback
import Verif.Traversal.CallbackModel
import Verif.Traversal.Lemmas
import Verif.Traversal.Model
import Verif.Traversal.Theorems
import Verif.Traversal.Weak
import Verif.Tree
import Verif.UnionFind.Lemmas
import Verif.UnionFind.Model
import Verif.UnionFind.Step
import Verif.UnionFind.Termination
import Verif.UnionFind.Theorems
import Verif.UnionFind.Weak
import Verif.UnionFind.WeakModel
import Verif.UnionFind.WeakTheorems
import Verif.Verify.Distributed
import Verif.Verify.DistributedDbscan
import Verif.Verify.Lemmas
import Verif.Verify.Model
import Verif.Verify.Theorems
import Verif.Verify.Unique
import Verif.Viz.Lemmas
import Verif.Viz.Model
import Verif.Viz.Theorems
