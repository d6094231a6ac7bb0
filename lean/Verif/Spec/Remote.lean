import Verif.Model.Remote

/-! # Specification vocabulary: remote execution -/

namespace AstroRun.Spec
open AstroRun

/-- `m` is the state after the moves `acts` of a remote execution. -/
def RemoteReach (acts : List RemoteAct) (m : RemoteRun) : Prop := runs RemoteRun.step {} acts = some m

/-- The logs among messages. -/
def wireLogs (xs : List WireItem) : List Log := xs.filterMap fun | .log l => some l | _ => none

/-- The results among messages. -/
def wireResults (xs : List WireItem) : List RunResult := xs.filterMap fun | .result r => some r | _ => none

/-- Everything the runner on the server wrote. -/
def runnerLogs (acts : List RemoteAct) : List Log := acts.filterMap fun | .runnerPush l => some l | _ => none

/-- The move does not end the runner's stream. -/
def notEnd : RemoteAct → Bool
  | .runnerEnd _ => false
  | _ => true

/-- What the runner on the server wrote before it ended its stream. -/
def runnerLogsBeforeEnd (acts : List RemoteAct) : List Log := runnerLogs (acts.takeWhile notEnd)

/-- A log line the client adds itself. -/
def OwnError (l : Log) : Prop := ∃ msg, l = { logType := .error, message := "Failed to run" ++ msg }

/-- The moves of the client's task. -/
def isClientMove : RemoteAct → Bool
  | .rpcOk | .rpcErr .. | .cliNext | .netErr _ | .cliSignal | .sigOk | .sigErr | .check => true
  | _ => false

/-- `m` is the state after the moves `acts` of `start` and of the emitters. -/
def FwdReach {ε : Type} (acts : List (FwdAct ε)) (m : Fwd ε) : Prop := runs Fwd.step ({} : Fwd ε) acts = some m

/-- The events runner `c` got, in order. -/
def gotBy {ε : Type} (m : Fwd ε) (c : Id) : List ε := (m.delivered.filter fun d => d.1 == c).map Prod.snd

/-- `w` is the state after the moves `acts`. -/
def SigReach (acts : List SigAct) (w : SigNet) : Prop := runs SigNet.step {} acts = some w

/-- What really happened in a history of engine calls: which step was started on which runner, and which steps and
jobs completed. -/
def remoteTrace (cl : RemoteClient) : List RemoteOp → List SchedEvent
  | [] => []
  | .run c :: os =>
    (match (cl.run c).2 with
      | .spawned r => [.scheduled c r]
      | _ => []) ++ remoteTrace (cl.op (.run c)) os
  | .event (.stepCompleted r) :: os => .stepDone r.id :: remoteTrace (cl.op (.event (.stepCompleted r))) os
  | .event (.jobCompleted r) :: os => .jobDone r.id :: remoteTrace (cl.op (.event (.jobCompleted r))) os
  | .event e :: os => remoteTrace (cl.op (.event e)) os

/-- `c'` results from `c` by passing it through all hooks in turn, none of which fails. -/
inductive PassedThrough : List RemoteHook → Command → Command → Prop
  | nil (c) : PassedThrough [] c c
  | cons {h hs c c1 c2} : h c = .ok c1 → PassedThrough hs c1 c2 → PassedThrough (h :: hs) c c2

end AstroRun.Spec
