import Verif.Model.Types
import Verif.Model.Request
import Verif.Model.RequestParser
import Verif.Model.Response
import Verif.Model.ResponseParser
import Verif.Model.Prog
import Verif.Model.Dispatch
import Verif.Lemmas.Bytes
import Verif.Lemmas.Builder
import Verif.Lemmas.BuilderValue
import Verif.Lemmas.Encode
import Verif.Props.Builder
import Verif.Props.Arguments
import Verif.Lemmas.ReqParser
import Verif.Props.RequestParser
import Verif.Props.Rebuilt
import Verif.Props.HopThreads
import Verif.Props.Users
import Verif.Props.UsersFair
import Verif.Props.UsersStore
import Verif.Props.UsersStories
import Verif.Lemmas.ResponseWriter
import Verif.Lemmas.RespParser
import Verif.Lemmas.RespInv
import Verif.Props.Response
import Verif.Props.Codes
import Verif.Lemmas.Engine
import Verif.Lemmas.Refine
import Verif.Lemmas.Dispatch
import Verif.Props.Store
import Verif.Lemmas.Footprint
import Verif.Lemmas.Calls
import Verif.Props.Engine
import Verif.Props.Counters
import Verif.Props.Appends
import Verif.Lemmas.MapSet
import Verif.Lemmas.Types
import Verif.Props.Queries
import Verif.Props.Reserved
import Verif.Lemmas.Concurrent
import Verif.Props.Concurrent
import Verif.Props.Interleave
import Verif.Props.Exclusive
import Verif.Props.Racing
import Verif.Props.Metrics
import Verif.Props.MetricsThreads
import Verif.Props.Timer
import Verif.Props.Sessions
import Verif.Props.PubSub
import Verif.Props.Server
import Verif.Props.ServerLive
import Verif.Props.Client
import Verif.Props.ClientSet
import Verif.Props.ClientServer
import Verif.Props.Cli
import Verif.Props.CliOutput
import Verif.Props.CliFutures
import Verif.Props.CliSession
import Verif.Props.CliStores
import Verif.Props.CliCalls
import Verif.Props.Wire
import Verif.Props.Hop
import Verif.Props.Value
import Verif.Props.State
import Verif.Spec.Adaptive
import Verif.Lemmas.Obeys
import Verif.Props.Adaptive
import Verif.Props.Setting
import Verif.Props.Creating
import Verif.Model.Config
import Verif.Props.Config
import Verif.Model.PubSubThreads
import Verif.Spec.PubSubThreads
import Verif.Props.PubSubThreads
import Verif.Model.Handles
import Verif.Spec.Handles
import Verif.Props.Handles
import Verif.Props.ClientLimits
import Verif.Model.Futures
import Verif.Spec.Futures
import Verif.Props.Futures
import Verif.Lemmas.Progress
import Verif.Props.Progress
import Verif.Props.Losing
import Verif.Props.Asking
import Verif.Model.Errors
import Verif.Model.Locks
import Verif.Props.Locks
import Verif.Props.Errors
import Verif.Spec.Promises
import Verif.Props.Promises
import Verif.Props.ClientThreads
import Verif.Model.Guards
import Verif.Props.Remote
import Verif.Props.Guards
import Verif.Props.GuardsDispatch
import Verif.Props.Moving
import Verif.Props.Story
import Verif.Spec.Steps
import Verif.Props.Steps
import Verif.Props.AfterError
import Verif.Spec.Seats
import Verif.Props.Seats
import Verif.Props.GuardCalls
import Verif.Props.Rounds
import Verif.Model.SessionGuards
import Verif.Spec.SessionGuards
import Verif.Props.SessionGuards
import Verif.Lemmas.Fair
import Verif.Props.Fair
import Verif.Model.PubSubLocks
import Verif.Props.PubSubLocks
import Verif.Model.SessionLocks
import Verif.Props.SessionLocks
import Verif.Model.MetricLocks
import Verif.Props.MetricLocks
import Verif.Model.SharedConn
import Verif.Spec.SharedConn
import Verif.Props.SharedConn
import Verif.Spec.Linear
import Verif.Lemmas.Agents
import Verif.Props.Linear
import Verif.Model.Collections
import Verif.Spec.Collections
import Verif.Props.Collections
import Verif.Spec.Callers
import Verif.Props.Callers
import Verif.Props.Local
import Verif.Spec.Shown
import Verif.Props.Shown
import Verif.Lemmas.Shown
import Verif.Spec.CallersLocal
import Verif.Props.CallersLocal
import Verif.Model.GuardLocks
import Verif.Props.GuardLocks
import Verif.Props.CallersExtend
import Verif.Model.ServerFlow
import Verif.Spec.ServerFlow
import Verif.Props.ServerFlow
import Verif.Props.ServerFail
import Verif.Props.CountersAside
import Verif.Model.EngineGuards
import Verif.Props.EngineGuards
import Verif.Props.EngineGuardsFair
import Verif.Model.GuardedCommands
import Verif.Props.GuardedCommands
import Verif.Props.RefusedGuarded
import Verif.Props.Notation
import Verif.Spec.ResponseAsks
import Verif.Props.ResponseAsks
import Verif.Spec.ResponseReads
import Verif.Props.ResponseReads
import Verif.Props.Repeat
import Verif.Props.Reorder
import Verif.Props.Storable
import Verif.Props.Observe
import Verif.Props.Order
import Verif.Props.OrderThreads
import Verif.Props.Growth
import Verif.Props.UsersGrowth
import Verif.Props.Builds
import Verif.Props.BuildsAround
import Verif.Props.BuildsClients
import Verif.Props.BuildsUsers
import Verif.Props.AfterPanic
import Verif.Props.ClientStores
import Verif.Props.ClientMidway
import Verif.Props.CallersEnd
import Verif.Props.ClientFinds
import Verif.Props.ClientAftermath
import Verif.Props.ClientRepeat
import Verif.Props.ClientReorder
import Verif.Props.ClientGrowth
import Verif.Props.ServerLimits
import Verif.Props.FlowLimits
import Verif.Props.ServerAlone
import Verif.Tests.Engine
import Verif.Tests.Others
