import Verif.Model.RemoteStack
import Verif.Spec.JobMachine
import Verif.Spec.RemoteTransparent

/-! # Specification vocabulary: a job on the remote runner -/

namespace AstroRun.Spec
open AstroRun

/-- `s` is a state the schedule `acts` leads to. -/
def RemoteStackReach (job : Job) (t : Time) (acts : List RemoteStackAct) (s : RemoteStack) : Prop :=
  runs RemoteStack.step (RemoteStack.initial job t) acts = some s

/-- The moves of call `i`: its client task, network, server task and runner. -/
def movesOf (i : Nat) (acts : List RemoteStackAct) : List RemoteAct :=
  acts.filterMap fun
    | .net j a => if j = i then some a else none
    | .signalFailed j _ => if j = i then some .sigErr else none
    | _ => none

/-- The engine is executing step `st` through call `i`, which is in state `x`. -/
def ExecutingRemotely (s : RemoteStack) (st : Step) (i : Nat) (x : RemoteExec) : Prop :=
  ((∃ t0, s.eng.pc = .handling st t0) ∨ ∃ t0 d, s.eng.pc = .select st t0 d) ∧ s.current = some i ∧ s.execs[i]? = some x

/-- The step has ended: it is no longer executed, and `r` is its result. -/
def RemotelyEnded (before after : RemoteStack) (r : StepRunResult) : Prop :=
  after.eng.pc = .next ∧ after.eng.acc.results = before.eng.acc.results ++ [r]

/-- No other call is for this step, and no step of this name has completed. -/
def OnlyCall (s : RemoteStack) (i : Nat) (id : StepId) : Prop :=
  (∀ (j : Nat) (y : RemoteExec), s.execs[j]? = some y → y.command.id = id → j = i) ∧
  ∀ r, .stepCompleted r ∈ s.eng.acc.trace → r.id ≠ id

/-- The steps handed to the runner so far. -/
def handedOut (trace : List Event) : List StepId := trace.filterMap fun | .runnerRun c => some c.id | _ => none

/-- The moves that carry a cancellation, or a timeout, from the engine to the server that executes call `i`. -/
def carriesSignal (i : Nat) : RemoteStackAct → Bool
  | .eng .jobSignal => true
  | .net j .rpcOk | .net j .cliSignal | .net j .sigOk => j == i
  | _ => false

/-- The step's signal is set, or the job's is and the step's execution has not seen it yet. -/
def SignalPending (m : JobM) (v : Signal) : Prop :=
  m.sig.signal = some v ∨ m.sig.signal = none ∧ ∃ js, m.jobSig = some js ∧ js.signal = some v ∧ js.isNotified = false

end AstroRun.Spec
