import Verif.Props.Signal
import Verif.Props.Id
import Verif.Props.Stream
import Verif.Props.SignalManager
import Verif.Props.Condition
import Verif.Props.Matcher
import Verif.Props.Config
import Verif.Props.Parser
import Verif.Props.Plugin
import Verif.Props.Job
import Verif.Props.JobMachine
import Verif.Props.Workflow
import Verif.Props.WorkflowTerm
import Verif.Props.Scheduler
import Verif.Props.Remote
import Verif.Props.RemoteEvents
import Verif.Props.Wire
import Verif.Props.UserDecode
import Verif.Props.Runner
import Verif.Props.LocalRun
import Verif.Props.Entry
import Verif.Props.SelectLoop
import Verif.Props.Server
import Verif.Props.ServerSignals
import Verif.Props.Builders
import Verif.Props.System
import Verif.Props.SystemLive
import Verif.Props.Timing
import Verif.Props.Lifecycle
import Verif.Props.SystemCancel
import Verif.Props.MatcherConc
import Verif.Props.RemoteTransparent
import Verif.Props.LocalStack
import Verif.Props.Process
import Verif.Props.JsonText
import Verif.Props.Payload
import Verif.Props.Logger
import Verif.Props.ErrorText
import Verif.Props.JsonTruncated
import Verif.Props.JsonGrammar
import Verif.Props.RemoteServer
import Verif.Props.RemoteStack
import Verif.Props.RemoteHost
import Verif.Props.RemoteTimeout
import Verif.Props.RemoteFleet
import Verif.Props.LocalEngine
import Verif.Props.SystemAlone
import Verif.Props.LocalEngineAlone
import Verif.Props.SignalMany
import Verif.Props.WireFields
import Verif.Props.CancelAnswer
import Verif.Props.Faults
import Verif.Props.Grpc
import Verif.Props.RemoteStarts
import Verif.Props.Fair
import Verif.Props.FairLocal
import Verif.Props.RemoteEngine
import Verif.Props.FairRemote
import Verif.Props.WireMeaning
import Verif.Props.CmdBytes
import Verif.Props.ClientLoop
import Verif.Props.RunnerLoop
import Verif.Props.FairLocalFutures
import Verif.Props.FairRemoteFutures
import Verif.Props.EndToEnd
import Verif.Props.FairSilent
import Verif.Props.FairCancel
import Verif.Props.Balance
import Verif.Props.FairRemoteCancel
import Verif.Props.FairRemoteSilent
import Verif.Props.EndToEndSilent
import Verif.Props.MatcherDialog
