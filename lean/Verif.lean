import Verif.Base.Ids
import Verif.Base.BTree
import Verif.Pure.Quorum
import Verif.Pure.Membership
import Verif.Spec.Quorum
import Verif.Props.QuorumProps
import Verif.Pure.Progress
import Verif.Pure.ProgressLemmas
import Verif.Props.ProgressProps
import Verif.Pure.LogIdList
import Verif.Pure.LogIdListLemmas
import Verif.Pure.LogIdListMore
import Verif.Pure.LogIdListLoad
import Verif.Props.LogIdProps
import Verif.Base.StdVote
import Verif.Props.OrderProps
import Verif.Cluster.Model
import Verif.Cluster.Prefix
import Verif.Cluster.Ghost
import Verif.Cluster.LC
import Verif.Cluster.GhostSteps
import Verif.Cluster.Follower
import Verif.Cluster.Steps1
import Verif.Cluster.Steps2
import Verif.Cluster.Reach
import Verif.Cluster.Read
import Verif.Cluster.Elect
import Verif.Cluster.Script
import Verif.Cluster.Cex
import Verif.Props.ClusterProps
import Verif.Repl.Entry
import Verif.Repl.Session
import Verif.Repl.SessionInv
import Verif.Repl.Rounds
import Verif.Props.ProbeProps
import Verif.Rt.Balancer
import Verif.Props.LoopProps
import Verif.Rt.Config
import Verif.Rt.Payload
import Verif.Props.PayloadProps
import Verif.Rt.Chunked
import Verif.Props.ChunkedProps
import Verif.Engine.Store
import Verif.Props.StartupProps
import Verif.Engine.Types
import Verif.Engine.Core
import Verif.Engine.Input
import Verif.Engine.Basic
import Verif.Engine.Ghost
import Verif.Engine.MemInv
import Verif.Engine.Frame
import Verif.Engine.Inv
import Verif.Engine.InvLeader
import Verif.Engine.InvFollower
import Verif.Engine.InvVote
import Verif.Engine.InvStep
import Verif.Engine.Grow
import Verif.Engine.Emits
import Verif.Engine.VoteFlow
import Verif.Engine.Shape
import Verif.Engine.IoOrder
import Verif.Engine.IoKeep
import Verif.Engine.Demo
import Verif.Spec.Commands
import Verif.Props.EngineProps
import Verif.Engine.Cand
import Verif.Props.EngineProps2
import Verif.Runtime.Model
import Verif.Runtime.Queue
import Verif.Runtime.Demo
import Verif.Props.RuntimeProps
import Verif.Engine.Stream
import Verif.Engine.Lead
import Verif.Engine.Pairs
import Verif.Engine.Flow
import Verif.Engine.FlowStart
import Verif.Engine.Bound
import Verif.Runtime.Inv
import Verif.Runtime.InvRun
import Verif.Runtime.Answers
import Verif.Runtime.Restart
import Verif.Runtime.RestartLoad
import Verif.Runtime.RestartInv
import Verif.Runtime.Crash
import Verif.Runtime.Life
import Verif.Runtime.VoteLife
import Verif.Props.DurableProps
import Verif.Props.RestartProps
import Verif.Engine.Lease
import Verif.Runtime.Timed
import Verif.Props.LeaseProps
import Verif.Pure.Track
import Verif.Pure.MemWf
import Verif.Engine.Clock
import Verif.Engine.Sync
import Verif.Engine.Acked
import Verif.Engine.Ask
import Verif.Props.AnswerProps
import Verif.Props.ClockProps
import Verif.Runtime.Clients
import Verif.Props.ClientProps
import Verif.Engine.Total
import Verif.Engine.Safe
import Verif.Engine.SafeStep
import Verif.Engine.Transfer
import Verif.Runtime.Safe
import Verif.Runtime.Worker
import Verif.Props.AbortProps
import Verif.Engine.Streams
import Verif.Engine.MemFrom
import Verif.Runtime.MemFrom
import Verif.Runtime.ApplyReady
import Verif.Engine.Rebuild
import Verif.Runtime.Streams
import Verif.Props.CalmProps
import Verif.Engine.Noop
import Verif.Engine.NoopAt
import Verif.Props.DecisionProps
import Verif.Net.Facts
import Verif.Net.Demo
import Verif.Props.NetProps
import Verif.Props.NetCexProps
import Verif.Props.BuildProps
import Verif.Engine.Waits
import Verif.Runtime.Waits
import Verif.Runtime.WaitLife
import Verif.Runtime.Chain
import Verif.Runtime.Progress
import Verif.Runtime.WaitLives
import Verif.Props.WaitProps
import Verif.Engine.Validate
import Verif.Runtime.Valid
import Verif.Props.ValidProps
import Verif.Net.Reads
import Verif.Net.Check
import Verif.Net.Rules
import Verif.Net.Cex
import Verif.Props.ReadProps
import Verif.Pure.ChangeApi
import Verif.Props.ChangeProps
import Verif.Props.ChangeEngineProps
import Verif.Runtime.Answered
import Verif.Props.AnsweredProps
import Verif.Engine.Elected
import Verif.Props.ElectProps
import Verif.Engine.Role
import Verif.Rt.Join
import Verif.Rt.JoinInv
import Verif.Rt.Watch
import Verif.Runtime.Metrics
import Verif.Props.MetricsProps
import Verif.Engine.Sends
import Verif.Props.SendProps
import Verif.Engine.Pipe
import Verif.Engine.Line
import Verif.Runtime.Tasks
import Verif.Runtime.TasksInv
import Verif.Runtime.Avail
import Verif.Runtime.Know
import Verif.Runtime.TeamLife
import Verif.Runtime.TaskRead
import Verif.Props.TaskProps
import Verif.Props.JoinProps
import Verif.Engine.Stuck
import Verif.Props.CommitProps
import Verif.Props.OverCommitProps
import Verif.Engine.StuckClock
import Verif.Props.AckTimeProps
import Verif.Runtime.AddLearner
import Verif.Props.LearnerProps
import Verif.Rt.Heartbeat
import Verif.Props.HeartbeatProps
import Verif.Rt.Instant
import Verif.Props.InstantProps
import Verif.Rt.Tick
import Verif.Props.TickProps
import Verif.Rt.Backoff
import Verif.Rt.BackoffInv
import Verif.Props.BackoffProps
import Verif.Runtime.Boards
import Verif.Props.BoardProps
import Verif.Engine.VTime
import Verif.Runtime.VTimeLife
import Verif.Props.TimeoutProps
import Verif.Rt.Adapt
import Verif.Props.AdaptProps
