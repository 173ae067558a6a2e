import Verif.Arith
import Verif.Basic
import Verif.Model.Grid
import Verif.Props.Grid
import Verif.Props.ZeroFinder
import Verif.Props.DSU
import Verif.Props.MaterialFilter
import Verif.Props.Mesh
import Verif.Props.Tables
import Verif.Props.Filled
import Verif.Props.MarchingCubes
import Verif.Props.McOrient
import Verif.Props.Qef
import Verif.Props.QefDemo
import Verif.Props.EdgeNormal
import Verif.Props.UniformDC
import Verif.Model.Octree
import Verif.Model.DcOctree
import Verif.Model.MdcOctree
import Verif.Proofs.MdcHeap
import Verif.Proofs.MdcLeaf
import Verif.Proofs.MdcTree
import Verif.Proofs.MdcRun
import Verif.Proofs.MdcContour
import Verif.Proofs.MdcContour2
import Verif.Proofs.MdcNode
import Verif.Proofs.MdcForest
import Verif.Proofs.MdcCalls
import Verif.Proofs.MdcMerge
import Verif.Proofs.MdcCluster
import Verif.Spec.Octree
import Verif.Proofs.Octree
import Verif.Proofs.OctreeTrace
import Verif.Proofs.OctreeEdges
import Verif.Proofs.OctreeLeaves
import Verif.Props.Octree
import Verif.Props.OctreeVert
import Verif.Spec.DcOctree
import Verif.Proofs.DcBuild
import Verif.Proofs.DcLeaf
import Verif.Proofs.DcTree
import Verif.Proofs.DcContour
import Verif.Proofs.DcContour2
import Verif.Props.DcOctree
import Verif.Proofs.DcTotal
import Verif.Proofs.DcTopo
import Verif.Props.DcCollapse
import Verif.Props.DcUniform
import Verif.Props.DcDemo
import Verif.Proofs.Push
import Verif.Proofs.SegCover
import Verif.Props.DcClosed
import Verif.Spec.MdcOctree
import Verif.Proofs.MdcSheet
import Verif.Proofs.MdcPieces
import Verif.Proofs.MdcMeshOk
import Verif.Proofs.MdcBuildOk
import Verif.Proofs.MdcVertex
import Verif.Proofs.MdcSeries
import Verif.Props.MdcOctree
import Verif.Props.MdcClosed
import Verif.Props.MdcDemo
import Verif.Model.DmcOctree
import Verif.Spec.DmcOctree
import Verif.Proofs.DmcContour
import Verif.Proofs.DmcDual
import Verif.Proofs.DmcBuild
import Verif.Proofs.DmcClosed
import Verif.Props.DmcOctree
import Verif.Props.DmcBuild
import Verif.Props.DmcClosed
import Verif.Props.DmcDemo
import Verif.Model.TriangleOctree
import Verif.Spec.TriangleOctree
import Verif.Proofs.TriDistance
import Verif.Proofs.TriInsert
import Verif.Proofs.TriNear
import Verif.Props.TriangleOctree
import Verif.Model.MeshField
import Verif.Props.MeshField
import Verif.Model.TriNodeMem
import Verif.Spec.TriNodeMem
import Verif.Proofs.TriNodeMem
import Verif.Proofs.TriNodeMem2
import Verif.Props.TriNodeMem
import Verif.Model.Heightmap
import Verif.Props.Heightmap
import Verif.Model.DcNodeMem
import Verif.Props.DcNodeMem
import Verif.Model.ArrNodeMem
import Verif.Props.ArrNodeMem
import Verif.Model.MdcRebuild
import Verif.Props.MdcRebuild
import Verif.Spec.Accuracy
import Verif.Props.Accuracy
import Verif.Props.AccuracyOct
import Verif.Proofs.FlatQef
import Verif.Proofs.PlaneTopo
import Verif.Spec.Flat
import Verif.Props.Flat
import Verif.Props.FlatOct
import Verif.Props.FlatMdc
import Verif.Props.PlaneCollapse
import Verif.Props.FlatDemo
import Verif.Props.FlatDmc
import Verif.Props.FlatDmcDemo
import Verif.Spec.Manifold
import Verif.Props.McManifold
import Verif.Props.MdcManifold
import Verif.Props.DcManifold
import Verif.Props.MdcManifoldDemo
import Verif.Model.Float
import Verif.Proofs.Float
import Verif.Spec.Rounding
import Verif.Props.Rounding
import Verif.Props.RoundingRF
import Verif.Props.RoundingDemo
import Verif.Props.RoundingMesh
import Verif.Spec.Chunks
import Verif.Proofs.Chunks
import Verif.Props.Chunks
import Verif.Props.ChunksRounded
import Verif.Spec.Placement
import Verif.Proofs.Placement
import Verif.Proofs.PlacementMesh
import Verif.Props.Placement
import Verif.Spec.Order
import Verif.Proofs.Order
import Verif.Props.Order
import Verif.Model.Copies
import Verif.Props.Copies
import Verif.Proofs.MultiAffine
import Verif.Proofs.CellVolume
import Verif.Spec.Volume
import Verif.Proofs.Volume
import Verif.Props.Volume
import Verif.Model.FillCrash
import Verif.Spec.FillCrash
import Verif.Proofs.FillCrash
import Verif.Props.FillCrash
import Verif.Props.Locality
import Verif.Props.Topology
import Verif.Spec.NaN
import Verif.Props.NaN
import Verif.Model.FillCalls
import Verif.Spec.FillCalls
import Verif.Proofs.FillCalls
import Verif.Props.FillCalls
import Verif.Props.FinderCalls
import Verif.Spec.Completeness
import Verif.Spec.ChunkVolume
import Verif.Props.Completeness
import Verif.Props.ChunkVolume
import Verif.Spec.Embedded
import Verif.Proofs.EmbeddedTable
import Verif.Proofs.EmbeddedCell
import Verif.Proofs.Embedded
import Verif.Props.Embedded
import Verif.Spec.Convergence
import Verif.Proofs.Convergence
import Verif.Props.Convergence
import Verif.Spec.Hausdorff
import Verif.Props.Hausdorff
import Verif.Spec.DualHausdorff
import Verif.Props.DualHausdorff
import Verif.Spec.Terrain
import Verif.Props.Terrain
import Verif.Props.DualVolume
import Verif.Props.LocalityDc
import Verif.Spec.Box
import Verif.Proofs.BoxQef
import Verif.Proofs.BoxCell
import Verif.Props.Box
import Verif.Props.BoxMdc
import Verif.Spec.Corner
import Verif.Proofs.CornerQef
import Verif.Props.Corner
import Verif.Props.CornerDemo
import Verif.Spec.Near
import Verif.Proofs.NearQef
import Verif.Props.Near
import Verif.Props.NearDemo
import Verif.Props.PlyMesh
import Verif.Props.Endpoints
import Verif.Model.HeightmapInt
import Verif.Props.HeightmapInt
import Verif.Model.GridInt
import Verif.Props.GridInt
import Verif.Props.DcError
import Verif.Props.MdcError
import Verif.Props.NearPlanes
import Verif.Props.SlabDemo
import Verif.Props.VertexNormal
import Verif.Props.VertexNormalDmc
