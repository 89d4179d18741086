import Verif.StructUtils
import Verif.StructUtilsProps
import Verif.Mem
import Verif.PackedPadded
import Verif.PackedPaddedProps
import Verif.Vec3
import Verif.Meshes
import Verif.MeshesSpec
import Verif.MeshesLemmas
import Verif.MeshesRefine
import Verif.MeshesUpdates
import Verif.MeshesCtor
import Verif.MeshesProps
import Verif.Edges
import Verif.EdgesProps
import Verif.MeshGeom
import Verif.MeshGeomProps
import Verif.MeshOpsProps
import Verif.Pointclouds
import Verif.PointcloudsSpec
import Verif.PointcloudsRefine
import Verif.PointcloudsUpdates
import Verif.PointcloudsProps
import Verif.TopK
import Verif.Chunks
import Verif.Scatter
import Verif.Knn
import Verif.KnnProps
import Verif.KnnBackward
import Verif.BallQuery
import Verif.Fps
import Verif.FpsProps
import Verif.Compositing
import Verif.CompositingProps
import Verif.WeightedSumProps
import Verif.Store
import Verif.Blending
import Verif.BlendingProps
import Verif.SamplePdf
import Verif.SamplePdfProps
import Verif.Raymarching
import Verif.RaymarchingProps
import Verif.GatherScatter
import Verif.GatherScatterProps
import Verif.Laplacian
import Verif.LaplacianProps
import Verif.Chamfer
import Verif.ChamferProps
import Verif.Mat3
import Verif.Rotations
import Verif.QuaternionProps
import Verif.EulerProps
import Verif.AxisAngleProps
import Verif.So3
import Verif.So3Props
import Verif.Transform3d
import Verif.Transform3dProps
import Verif.Cameras
import Verif.CamerasProps
import Verif.CameraScreen
import Verif.CameraPlace
import Verif.Geometry
import Verif.GeometryProps
import Verif.DistanceProps
import Verif.DistanceGrad
import Verif.RasterQueue
import Verif.RasterPoints
import Verif.RasterPointsGrad
import Verif.RasterMeshes
import Verif.BitMask
import Verif.RasterCoarse
import Verif.Argsort
import Verif.Subdivide
import Verif.Closed
import Verif.Cubify
import Verif.PointsVolumes
import Verif.MarchingTable
import Verif.MarchingSoup
import Verif.MarchingCubes
import Verif.MarchingGpu
import Verif.PackRect
import Verif.UvSample
import Verif.JoinScene
import Verif.ClipGeom
import Verif.Clip
import Verif.ClipProps
import Verif.Atlas
import Verif.AtlasProps
import Verif.FaceAttrs
import Verif.UvMaps
import Verif.RasterMeshesGrad
import Verif.PointMesh
import Verif.PointMeshGrad
import Verif.MeshLosses
import Verif.Align
import Verif.SvdExists
import Verif.Icp
import Verif.CameraConv
import Verif.Volumes
import Verif.CameraRays
import Verif.Raysampling
import Verif.Text
import Verif.ObjIo
import Verif.FloatRound
import Verif.OffIo
import Verif.PlyIo
import Verif.PlyBin
import Verif.PlyLoad
import Verif.PlyAscii
import Verif.PlyRound
import Verif.TensorProps
import Verif.Tens
import Verif.Lighting
import Verif.LightPhysics
import Verif.Shading
import Verif.PlyErrors
import Verif.FaceAreasGrad
import Verif.SampleUniform
import Verif.SampleMesh
import Verif.SymEig
import Verif.PointNormals
import Verif.Textures
import Verif.Shapes
import Verif.Taubin
import Verif.VertAlign
import Verif.Splatter
import Verif.PluggableIo
import Verif.PointsRender
import Verif.CameraAlign
import Verif.FishEye
import Verif.CameraUtils
import Verif.IoU
import Verif.IoUClip
import Verif.IoUProps
import Verif.Harmonic
import Verif.ImpRaymarch
import Verif.RayRefine
import Verif.PnP
import Verif.Gltf
import Verif.GltfProps
import Verif.GltfScene
import Verif.SphereTrace
import Verif.SphereTraceProps
import Verif.CircleFit
import Verif.CircleFitProps
import Verif.ViewPool
import Verif.Metrics
import Verif.SceneSampler
import Verif.FrameCrop
import Verif.PulsarRender
import Verif.PulsarDraw
import Verif.PulsarGrad
import Verif.PulsarCam
import Verif.VoxelGrid
import Verif.Binvox
import Verif.ShapeNet
import Verif.ImpRays
import Verif.RastGlue
import Verif.ImpChunks
import Verif.PclTools
import Verif.Loaders
import Verif.TrainStats
import Verif.AutoDec
import Verif.Decoders
import Verif.Trajectory
import Verif.JsonIndex
import Verif.SqlIndex
import Verif.MapProvider
import Verif.WarpRace
import Verif.Checkerboard
import Verif.Checkpoints
import Verif.ImpConfig
import Verif.OptFactory
import Verif.ViewMetrics
import Verif.VoxelImplicit
import Verif.NvsEval
import Verif.ImpModels
import Verif.SrnIdr
import Verif.NerfProject
import Verif.GlRaster
import Verif.NerfFields
import Verif.PlotlyVis
import Verif.GeomGpu
import Verif.KnnLaunch
import Verif.SingleScene
import Verif.PackWrap
import Verif.PulsarPass
import Verif.Flyaround
import Verif.CondNets
import Verif.PulsarTorch
import Verif.SqlProv
import Verif.Storage
import Verif.NerfTest
import Verif.FastMath
