import Verif.Util.Sort
import Verif.Schedule.Model
import Verif.Schedule.Lemmas
import Verif.Schedule.Spec
import Verif.Schedule.Inv
import Verif.Schedule.View
import Verif.Schedule.Order
import Verif.Schedule.Plan
import Verif.Schedule.Time
import Verif.Schedule.Dead
import Verif.Schedule.Examples
import Verif.Schedule.Props
import Verif.Schedule.Random
import Verif.Util.List
import Verif.Heapq.Model
import Verif.Heapq.Lemmas
import Verif.Heapq.Props
import Verif.Schedule.World
import Verif.Schedule.WorldLemmas
import Verif.Schedule.Fresh
import Verif.Schedule.WorldProps
import Verif.Checkpoint.Model
import Verif.Checkpoint.Lemmas
import Verif.Checkpoint.Props
import Verif.Space.Geom
import Verif.Space.BorderProps
import Verif.Space.Model
import Verif.Space.Spec
import Verif.Space.Refine
import Verif.Space.Occ
import Verif.Space.Props
import Verif.Topology.Model
import Verif.Topology.Props
import Verif.Topology.OOB
import Verif.Topology.Single
import Verif.Topology.Buffer
import Verif.Topology.BufferProps
import Verif.Topology.BufferMain
import Verif.Topology.BufferAgents
import Verif.Tree.Model
import Verif.Tree.Node
import Verif.Tree.Refine
import Verif.Tree.Props
import Verif.Tree.Rounding
import Verif.Tree.RoundBounds
import Verif.Tree.RoundGrid
import Verif.Geometry.Model
import Verif.Geometry.Props
import Verif.ValueLayer.Model
import Verif.ValueLayer.Props
import Verif.ValueLayer.Shared
import Verif.ValueLayer.SharedProps
import Verif.ValueLayer.Periodic
import Verif.Context.Dict
import Verif.Context.Model
import Verif.Context.Views
import Verif.Context.LocalProps
import Verif.Context.World
import Verif.Context.WorldProps
import Verif.Context.Violations
import Verif.Context.GridView
import Verif.Context.Kind
import Verif.Context.OneRank
import Verif.Context.OneSync
import Verif.Context.OneSpace
import Verif.Context.OneRun
import Verif.Context.OneProps
import Verif.Context.Sends
import Verif.Context.GridKind
import Verif.Context.OneGrid
import Verif.Context.CSpace
import Verif.Context.CSpaceView
import Verif.Context.CSpaceQueue
import Verif.Context.CSpaceKind
import Verif.Context.OneCSpace
import Verif.Context.RandomPt
import Verif.Context.Requested
import Verif.Files.Model
import Verif.Files.Free
import Verif.Files.Logging
import Verif.Files.Params
import Verif.Network.Partition
import Verif.Network.Assoc
import Verif.Network.Graph
import Verif.Network.Model
import Verif.Network.GraphLemmas
import Verif.Network.GraphProps
import Verif.Network.Violations
import Verif.Network.NetView
import Verif.Network.NetOps
import Verif.Network.RankView
import Verif.Network.RankSync
import Verif.Network.RankRecv
import Verif.Network.RankSend
import Verif.Network.Merge
import Verif.Network.NetSpec
import Verif.Network.NetInv
import Verif.Network.NetSynch
import Verif.Network.NetWorld
import Verif.Network.NetSim
import Verif.Network.NetRun
import Verif.Network.NetProps
import Verif.Network.NetExample
import Verif.Network.NetMid
import Verif.Network.GraphMove
import Verif.Network.RankMove
import Verif.Network.RankArrive
import Verif.Network.NetMove
import Verif.Network.RankReadd
import Verif.Network.NetSettle
import Verif.Network.NetMoved
import Verif.Network.NetHist
import Verif.Network.NetMoveExample
import Verif.Network.File
import Verif.Network.FileText
import Verif.Network.Dup
import Verif.Network.DupSynch
import Verif.Network.Requested
import Verif.Checkpoint.Network
import Verif.Checkpoint.NetworkLemmas
import Verif.Checkpoint.NetworkProps
import Verif.Checkpoint.NetworkLive
import Verif.Checkpoint.NetworkOrder
import Verif.Network.FileRead
import Verif.Network.FileWorld
import Verif.Network.FileProps
import Verif.Network.Bury
import Verif.Network.BuryRank
import Verif.Network.BurySync
import Verif.Network.BuryWorld
import Verif.Network.BuryStep
import Verif.Network.BurySpec
import Verif.Network.BuryRemove
import Verif.Network.BuryProps
import Verif.Network.BuryExample
import Verif.Checkpoint.Agents
import Verif.Checkpoint.Space
import Verif.Checkpoint.During
import Verif.Space.Iter
import Verif.Space.IterLemmas
import Verif.Space.IterProps
import Verif.Core.Agent
import Verif.Checkpoint.Random
import Verif.Files.Sources
import Verif.Space.Points
import Verif.Space.Count
import Verif.Core.Point
import Verif.Context.Returned
import Verif.Context.ManyKind
import Verif.Context.GridLoose
import Verif.Context.ManyRank
import Verif.Context.ManyGather
import Verif.Context.ManyArrive
import Verif.Context.ManySpace
import Verif.Context.ManySettle
import Verif.Context.ManyRun
import Verif.Context.SumSpace
import Verif.Context.ManyProps
import Verif.Context.ManyContext
import Verif.Schedule.Raise
import Verif.Context.Apart
import Verif.Context.ApartMove
import Verif.Checkpoint.CSpace
import Verif.Checkpoint.Tags
import Verif.Files.Raise
import Verif.Files.RaiseValues
import Verif.Context.Loops
import Verif.Mixed.Model
import Verif.Mixed.Violations
import Verif.Mixed.Frame
import Verif.Mixed.Inv
import Verif.Mixed.Sync
import Verif.Mixed.WorldInv
import Verif.Mixed.MoveInv
import Verif.Mixed.Run
import Verif.Mixed.Props
import Verif.Mixed.Lift
import Verif.Mixed.Walk
import Verif.Mixed.Roam
import Verif.Mixed.RoamProps
import Verif.Mixed.MoveProps
import Verif.Mixed.Late
import Verif.Mixed.LateBoth
import Verif.Mixed.Names
import Verif.Mpi.Model
import Verif.Mpi.Lib
import Verif.Mpi.NetShape
import Verif.Mpi.Network
import Verif.Mpi.NetProps
import Verif.Mpi.MixShape
import Verif.Mpi.Mixed
import Verif.Mpi.MixProps
import Verif.Mpi.Late
import Verif.Mpi.CtxShape
import Verif.Mpi.Context
import Verif.Mpi.CtxTurns
import Verif.Mpi.CtxProps
import Verif.Schedule.Stop
import Verif.Schedule.StopProps
import Verif.Schedule.Tick
import Verif.Schedule.Collective
import Verif.Mpi.Runner
import Verif.Mpi.RunRank
import Verif.Mpi.RunRanks
import Verif.Mpi.RunSetup
import Verif.Mpi.RunProps
import Verif.Mpi.RunMore
import Verif.Mpi.RunMoreTick
import Verif.Mpi.RunMoreRanks
import Verif.Mpi.RunMoreProps
import Verif.Mpi.Rooted
import Verif.Mpi.Logs
import Verif.Mpi.LogProps
import Verif.Mpi.Layers
import Verif.Mpi.MixFront
import Verif.Mpi.Whole
import Verif.Mpi.WholeProps
import Verif.Mpi.WholeRun
import Verif.ValueLayer.Matrix
import Verif.ValueLayer.MatrixPeriodic
import Verif.Mpi.ReadWrite
import Verif.Schedule.Again
import Verif.Topology.Attributes
import Verif.Space.Refs
import Verif.Space.Snapshot
import Verif.Schedule.Doubles
import Verif.Context.RandomRound
import Verif.Schedule.Ends
import Verif.Schedule.Done
import Verif.Schedule.Confluent
import Verif.Schedule.Alone
import Verif.Schedule.Crash
