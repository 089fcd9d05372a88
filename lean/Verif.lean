import Verif.Accel.Aitken
import Verif.Accel.Bounds
import Verif.Accel.FullRank
import Verif.Accel.IMVJ
import Verif.Accel.IMVJAffine
import Verif.Accel.IMVJExamples
import Verif.Accel.IMVJLemmas
import Verif.Accel.IMVJProps
import Verif.Accel.IMVJRestart
import Verif.Accel.IMVJSpec
import Verif.Accel.ParallelProduct
import Verif.Accel.ParallelProductProps
import Verif.Accel.ParallelProductRun
import Verif.Accel.Preconditioner
import Verif.Accel.QN
import Verif.Accel.QNAffine
import Verif.Accel.QNColumns
import Verif.Accel.QNCount
import Verif.Accel.QNExamples
import Verif.Accel.QNReuse
import Verif.Accel.QR
import Verif.Accel.QRFilter
import Verif.Accel.RSLS
import Verif.Accel.RSLSExamples
import Verif.Accel.RSLSProps
import Verif.Accel.RSLSRestart
import Verif.Accel.Relaxation
import Verif.Accel.SVD
import Verif.Accel.SVDExamples
import Verif.Accel.SVDLemmas
import Verif.Accel.SVDProps
import Verif.Accel.TimeGrid
import Verif.Accel.TimeGridExamples
import Verif.Accel.TimeGridLemmas
import Verif.Accel.TimeGridProps
import Verif.Accel.TimeGridValues
import Verif.Api.AccessProps
import Verif.Api.AccessRegion
import Verif.Api.Actions
import Verif.Api.ActionsExamples
import Verif.Api.ActionsLemmas
import Verif.Api.ActionsProps
import Verif.Api.ActionsReader
import Verif.Api.ActionsWriter
import Verif.Api.DataPath
import Verif.Api.DataPathExamples
import Verif.Api.DataPathLemmas
import Verif.Api.DataPathProps
import Verif.Api.DataPathReads
import Verif.Api.DataPathSteps
import Verif.Api.Examples
import Verif.Api.Inv
import Verif.Api.Lemmas
import Verif.Api.Model
import Verif.Api.MultiLock
import Verif.Api.MultiLockProps
import Verif.Api.Order
import Verif.Api.Props
import Verif.Api.Quad
import Verif.Api.QuadLemmas
import Verif.Api.QuadProps
import Verif.Bindings.Calls
import Verif.Bindings.Examples
import Verif.Bindings.Lemmas
import Verif.Bindings.Model
import Verif.Bindings.Props
import Verif.Bindings.Spec
import Verif.Com.ConnectionInfo
import Verif.Com.Flat
import Verif.Com.ParallelStamples
import Verif.Com.Ring
import Verif.Com.SendQueue
import Verif.Com.SerializedMesh
import Verif.Com.SerializedPartitioning
import Verif.Com.SerializedStamples
import Verif.Compositional.Local
import Verif.Compositional.Model
import Verif.Compositional.Network
import Verif.Compositional.NetworkDeadlock
import Verif.Compositional.NetworkExamples
import Verif.Compositional.NetworkLocal
import Verif.Compositional.NetworkLoop
import Verif.Compositional.NetworkProps
import Verif.Compositional.NetworkRank
import Verif.Compositional.NetworkRun
import Verif.Compositional.Props
import Verif.Compositional.Step
import Verif.Config.Acceleration
import Verif.Config.AccelerationEnd
import Verif.Config.AccelerationExamples
import Verif.Config.AccelerationLemmas
import Verif.Config.AccelerationProps
import Verif.Config.AccelerationSpec
import Verif.Config.Action
import Verif.Config.ActionExamples
import Verif.Config.ActionProps
import Verif.Config.ActionSpec
import Verif.Config.Connections
import Verif.Config.ConnectionsExamples
import Verif.Config.ConnectionsProps
import Verif.Config.Dataset
import Verif.Config.DatasetExamples
import Verif.Config.DatasetLemmas
import Verif.Config.DatasetProps
import Verif.Config.DatasetSpec
import Verif.Config.Method
import Verif.Config.MethodDevice
import Verif.Config.MethodExamples
import Verif.Config.MethodLemmas
import Verif.Config.MethodMain
import Verif.Config.MethodOpen
import Verif.Config.MethodProps
import Verif.Config.MethodSpec
import Verif.Config.MethodSteps
import Verif.Config.Participant
import Verif.Config.ParticipantAttach
import Verif.Config.ParticipantExamples
import Verif.Config.ParticipantLemmas
import Verif.Config.ParticipantProps
import Verif.Config.ParticipantSpec
import Verif.Config.Scheme
import Verif.Config.SchemeConfig
import Verif.Config.SchemeConfigLemmas
import Verif.Config.SchemeConfigMain
import Verif.Config.SchemeConfigPass
import Verif.Config.SchemeConfigProps
import Verif.Config.SchemeExamples
import Verif.Config.SchemeLemmas
import Verif.Config.SchemeProps
import Verif.Config.Tag
import Verif.Config.TagExamples
import Verif.Config.TagLemmas
import Verif.Config.TagProps
import Verif.Config.Value
import Verif.Config.ValueProps
import Verif.Dist.Arrays
import Verif.Dist.Collective
import Verif.Dist.GatherScatter
import Verif.Dist.GlobalIds
import Verif.Dist.Intersection
import Verif.Dist.OneLevel
import Verif.Dist.PointToPoint
import Verif.Dist.Repartition
import Verif.Dist.RepartitionMesh
import Verif.Dist.RepartitionProps
import Verif.Dist.RepartitionRun
import Verif.Dist.TwoLevel
import Verif.Dist.TwoLevelCompute
import Verif.Dist.TwoLevelData
import Verif.Dist.TwoLevelInit
import Verif.Dist.TwoLevelMaps
import Verif.Dist.TwoLevelMesh
import Verif.Dist.TwoLevelNone
import Verif.Dist.TwoLevelProps
import Verif.Dist.TwoLevelTransfer
import Verif.Doc.Examples
import Verif.Doc.Lemmas
import Verif.Doc.Model
import Verif.Doc.Props
import Verif.Doc.Spec
import Verif.Export.Content
import Verif.Export.ContentExamples
import Verif.Export.ContentProps
import Verif.Export.Examples
import Verif.Export.Lemmas
import Verif.Export.Model
import Verif.Export.Names
import Verif.Export.Props
import Verif.Export.Runs
import Verif.Export.Spec
import Verif.Log.Examples
import Verif.Log.Lemmas
import Verif.Log.Model
import Verif.Log.Props
import Verif.Log.Spec
import Verif.Log.Writer
import Verif.Logging.Examples
import Verif.Logging.Lemmas
import Verif.Logging.Model
import Verif.Logging.Props
import Verif.Logging.Spec
import Verif.Mapping.Barycenter
import Verif.Mapping.Basis
import Verif.Mapping.BasisDefinite
import Verif.Mapping.BasisMapping
import Verif.Mapping.BasisProps
import Verif.Mapping.Batched
import Verif.Mapping.BatchedLemmas
import Verif.Mapping.BatchedProps
import Verif.Mapping.BatchedUse
import Verif.Mapping.BatchedWrong
import Verif.Mapping.CellProps
import Verif.Mapping.CellSearch
import Verif.Mapping.Clustering
import Verif.Mapping.ClusteringExamples
import Verif.Mapping.ClusteringProps
import Verif.Mapping.CoarseGraining
import Verif.Mapping.CoarseGrainingProps
import Verif.Mapping.Compact
import Verif.Mapping.Definite
import Verif.Mapping.GradientLayout
import Verif.Mapping.Lemmas
import Verif.Mapping.Model
import Verif.Mapping.Multiscale
import Verif.Mapping.MultiscaleProps
import Verif.Mapping.Overlap
import Verif.Mapping.ParallelCell
import Verif.Mapping.ParallelCellExamples
import Verif.Mapping.ParallelExamples
import Verif.Mapping.ParallelNN
import Verif.Mapping.ParallelProjection
import Verif.Mapping.ParallelRbf
import Verif.Mapping.ParallelRbfUse
import Verif.Mapping.PetRbf
import Verif.Mapping.PetRbfExamples
import Verif.Mapping.PetRbfLemmas
import Verif.Mapping.PetRbfProps
import Verif.Mapping.PetRbfSeparate
import Verif.Mapping.PetRbfUse
import Verif.Mapping.Props
import Verif.Mapping.Pum
import Verif.Mapping.PumExamples
import Verif.Mapping.PumJit
import Verif.Mapping.PumLemmas
import Verif.Mapping.PumProps
import Verif.Mapping.Rbf
import Verif.Mapping.RbfExamples
import Verif.Mapping.RbfOrder
import Verif.Mapping.RbfParallel
import Verif.Mapping.RbfParallelExamples
import Verif.Mapping.RbfParallelProps
import Verif.Mapping.RbfParallelRun
import Verif.Mapping.RbfProps
import Verif.Mapping.RbfRenumber
import Verif.Mapping.Scaled
import Verif.Mapping.Solvable
import Verif.Mapping.SolvableUse
import Verif.Mapping.TimeSamples
import Verif.Mapping.Wendland
import Verif.Mesh.Box
import Verif.Mesh.BoxProps
import Verif.Mesh.Geometry
import Verif.Mesh.Integrate
import Verif.Mesh.Mesh
import Verif.Mesh.MeshLemmas
import Verif.Mesh.MeshProps
import Verif.Misc.EditDistance
import Verif.Misc.ScaleByArea
import Verif.Misc.Summation
import Verif.Misc.UniqueIds
import Verif.Misc.WatchIntegral
import Verif.Misc.WatchPoint
import Verif.Mpi.Examples
import Verif.Mpi.Lemmas
import Verif.Mpi.Model
import Verif.Mpi.Props
import Verif.Mpi.Spec
import Verif.Net.BufferedBind
import Verif.Net.Choreo
import Verif.Net.Exchange
import Verif.Net.Lift
import Verif.Net.Network
import Verif.Net.Never
import Verif.Net.Ordered
import Verif.Net.Prog
import Verif.Net.Rendezvous
import Verif.Net.Rounds
import Verif.Net.Script
import Verif.Net.Star
import Verif.Net.Trace
import Verif.Ports.Examples
import Verif.Ports.Lemmas
import Verif.Ports.Model
import Verif.Ports.Props
import Verif.Ports.Spec
import Verif.Profiling.Calls
import Verif.Profiling.Early
import Verif.Profiling.Examples
import Verif.Profiling.Lemmas
import Verif.Profiling.Model
import Verif.Profiling.Props
import Verif.Profiling.Spec
import Verif.Profiling.Steps
import Verif.Protocol.Deadlock
import Verif.Protocol.FirstMethod
import Verif.Protocol.FirstMethodProps
import Verif.Protocol.Handshake
import Verif.Protocol.Multi
import Verif.Protocol.MultiProps
import Verif.Protocol.Parallel
import Verif.Protocol.Participant
import Verif.Protocol.Props
import Verif.Protocol.Serial
import Verif.Protocol.Sync
import Verif.Remesh.Examples
import Verif.Remesh.Lemmas
import Verif.Remesh.Model
import Verif.Remesh.Props
import Verif.Remesh.Spec
import Verif.Scheme.Base
import Verif.Scheme.CheckpointProps
import Verif.Scheme.Exec
import Verif.Scheme.Local
import Verif.Scheme.Measure
import Verif.Scheme.MeasureProps
import Verif.Scheme.Multi
import Verif.Scheme.Schemes
import Verif.Scheme.Simulate
import Verif.Scheme.TimeProps
import Verif.Startup.Examples
import Verif.Startup.Lemmas
import Verif.Startup.Model
import Verif.Startup.Phases
import Verif.Startup.Props
import Verif.Startup.Spec
import Verif.Startup.TwoLevel
import Verif.Time.Differences
import Verif.Time.TimeHandler
import Verif.Waveform.Bspline
import Verif.Waveform.Interpolation
import Verif.Waveform.Props
import Verif.Waveform.Reproduction
import Verif.Waveform.Store
import Verif.Waveform.StoreLemmas
import Verif.Waveform.Zeros
