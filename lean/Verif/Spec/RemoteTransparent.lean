import Verif.Spec.Remote

/-! # Vocabulary: a remote execution without faults -/

namespace AstroRun.Spec
open AstroRun

/-- The first result the runner on the server ended its stream with. -/
def runnerResult : List RemoteAct → Option RunResult
  | [] => none
  | .runnerEnd r :: _ => some r
  | _ :: as => runnerResult as

/-- A failure of the network, of the server process or of `Runner::run`. -/
def isFault : RemoteAct → Bool
  | .rpcErr .. | .srvRunErr | .srvCrash | .rxDrop | .netErr _ | .sigErr => true
  | _ => false

/-- Nothing failed. -/
def FaultFree (acts : List RemoteAct) : Prop := ∀ a ∈ acts, isFault a = false

/-- The moves of the server's task, of the transport, of the client's task and of the engine that carry the execution on. -/
def isPipeline : RemoteAct → Bool
  | .rpcOk | .srvRunOk | .srvPoll | .srvResult | .srvSend | .srvSendErr | .xmit | .cliNext | .cliSignal | .sigOk | .check | .engPoll => true
  | _ => false

end AstroRun.Spec
