import Verif.Model.RemoteEngine
import Verif.Spec.LocalEngine
import Verif.Spec.RemoteStack

/-! # Specification vocabulary: an engine on the remote runner -/

namespace AstroRun.Spec
open AstroRun

/-- `E` is a state the schedule `acts` leads to. -/
def RemoteEngineReach (acts : List RemoteEngineAct) (E : RemoteEngine) : Prop :=
  runs RemoteEngine.step RemoteEngine.initial acts = some E

/-- The moves of the engine, its users and the clock in a schedule. -/
def remoteEngineMoves (acts : List RemoteEngineAct) : List SysAct := acts.filterMap fun | .sys a => some a | _ => none

/-- The moves in call `n` of job task `i` of run `r`: of its client task, network, server task and runner. -/
def callMoves (r i n : Nat) (acts : List RemoteEngineAct) : List RemoteAct :=
  acts.filterMap fun
    | .net r' i' n' a => if r' = r ∧ i' = i ∧ n' = n then some a else none
    | .signalFailed r' i' n' _ => if r' = r ∧ i' = i ∧ n' = n then some .sigErr else none
    | _ => none

/-- What observers were shown of an executed step (`h`), what happened in the call made for it (`moves`) and the result
stored for it (`res`) belong together: they are about the same step; the entries shown are those the runner on the server wrote,
up to some point, and at most one error the client added; the result is the one the runner ended with, or the failure
the client reports with that error.  If nothing failed, nothing was added, and everything the runner wrote before it ended was shown. -/
def SameRemoteStep (h : Command × List Log) (x : RemoteExec) (moves : List RemoteAct) (res : StepRunResult) : Prop :=
  ∃ (st : Step) (shown own : List Log) (k : Nat) (y : RunResult),
    h = (st.toCommand, shown) ∧ x.command = st.toCommand ∧ res.id = st.id ∧ Reports y res ∧
    shown = (runnerLogs moves).take k ++ own ∧ (own = [] ∨ ∃ l, own = [l] ∧ OwnError l) ∧
    (runnerResult moves = some y ∨ y = .failed 1 ∧ own ≠ []) ∧
    (FaultFree moves → runnerResult moves = some y ∧ runnerLogsBeforeEnd moves <+: shown ∧ shown <+: runnerLogs moves)

/-- A step no runner was found for: observers were told so, and it failed. -/
def NoRunnerStep (h : Command × List Log) (res : StepRunResult) : Prop :=
  ∃ st : Step, h = (st.toCommand, [Log.ofError "No runner available"]) ∧ res.id = st.id ∧ Reports (.failed 1) res

/-- `hs`, the calls of job task `i` of run `r` and `rs` are about the same steps, in the same order. -/
def SameRemoteSteps (acts : List RemoteEngineAct) (E : RemoteEngine) (r i : Nat) (hs : List (Command × List Log)) (rs : List StepRunResult) :
    Prop :=
  hs.length = (E.calls r i).length ∧ rs.length = (E.calls r i).length ∧
  ∀ (n : Nat) (h : Command × List Log) (o : Option RemoteExec) (res : StepRunResult), hs[n]? = some h → (E.calls r i)[n]? = some o →
    rs[n]? = some res → match o with
      | some x => SameRemoteStep h x (callMoves r i n acts) res
      | none => NoRunnerStep h res

/-- The job task is executing the step for which it has made call `n`. -/
def BusyRemotely (E : RemoteEngine) (r i n : Nat) (st : Step) : Prop :=
  ∃ t, taskAt E.sys r i = some t ∧ t.pc.reading = true ∧ stepOf t.pc = some st ∧ n + 1 = (E.calls r i).length

/-- The before-step hooks leave the job part of step ids alone (as `HooksKeepJobs`). -/
def RemoteEngineHooksKeepJobs (acts : List RemoteEngineAct) : Prop :=
  ∀ pre r i b s post, acts = pre ++ RemoteEngineAct.sys (.task r i (.nextStep b s)) :: post → ∀ E, RemoteEngineReach pre E →
    ∀ t, taskAt E.sys r i = some t → s.id.jobId = t.job.id

/-- Nothing that works for run `r` can move: neither its main task and job tasks, nor the client, nor the client's tasks, the
transport and the servers' tasks of its calls (but for failures); and no client's task is still to learn that its connection broke. -/
structure RemoteRunStuck (E : RemoteEngine) (r : Nat) : Prop where
  engine : ∀ a, ofRun r a → E.step (.sys a) = none
  client : ∀ i server, E.step (.dispatched r i server) = none ∧ E.step (.noRunner r i) = none
  calls : ∀ i n a, isPipeline a = true → E.step (.net r i n a) = none
  lost : ∀ i n x, (E.calls r i)[n]? = some (some x) → x.net.dropped = true → ∀ e, E.step (.net r i n (.netErr e)) = none

/-- A call whose runner on the server has ended its stream, or whose server's task is over, or whose client's task is. -/
def ServerOver (x : RemoteExec) (moves : List RemoteAct) : Prop :=
  runnerResult moves ≠ none ∨ x.net.srv = .dead ∨ x.net.cli = .finished

/-- Call `n` of job task `i` of run `r`. -/
def callAt (E : RemoteEngine) (r i n : Nat) : Option RemoteExec := ((E.calls r i)[n]?).bind id

/-- Call `n` of job task `i` of run `r` is the only one, in all runs, for a step with this id, and no such step has completed. -/
def OnlyCallFor (E : RemoteEngine) (r i n : Nat) (id : StepId) : Prop :=
  (∀ r' i' n' y, callAt E r' i' n' = some y → y.command.id = id → r' = r ∧ i' = i ∧ n' = n) ∧
  ∀ (r' : Nat) (ρ : SysRun) o res, E.sys.runs[r']? = some ρ → (o, Event.stepCompleted res) ∈ ρ.trace → res.id ≠ id

/-- The moves that carry a signal from the engine to the server that executes call `n` of job task `i` of run `r`. -/
def carriesOn (r i n : Nat) : RemoteEngineAct → Bool
  | .net r' i' n' .rpcOk | .net r' i' n' .cliSignal | .net r' i' n' .sigOk => r' == r && i' == i && n' == n
  | _ => false

end AstroRun.Spec
