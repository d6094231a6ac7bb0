import Verif.Model.RemoteHost
import Verif.Spec.RemoteStack
import Verif.Spec.LocalStack

/-! # Specification vocabulary: a job on remote runners that execute steps locally -/

namespace AstroRun.Spec
open AstroRun

/-- `s` is a state the schedule `acts` leads to. -/
def HostReach (servers : Id → LocalSetup) (event : Option TriggerEvent) (job : Job) (t : Time) (acts : List HostAct) (s : RemoteHost) :
    Prop := runs RemoteHost.step (RemoteHost.initial servers event job t) acts = some s

/-- Neither the network nor the server failed in call `i`. -/
def NetClean (i : Nat) (acts : List HostAct) : Prop := ∀ b, .stk b ∈ acts → FaultFree (movesOf i [b])

/-- The engine is executing step `st` through call `i`, which is in state `x`; `l` is the state of the task of the server's local runner
(with plan `p`) that does it. -/
def ExecutingThere (s : RemoteHost) (st : Step) (i : Nat) (x : RemoteExec) (p : RunPlan) (l : LocalRun) : Prop :=
  ExecutingRemotely s.net st i x ∧ s.tasks i = some (p, l)

/-- The step has ended: it is no longer executed, and `r` is its result. -/
def EndedThere (before after : RemoteHost) (r : StepRunResult) : Prop := RemotelyEnded before.net after.net r

/-- The moves of the engine's task, of the client's and the server's tasks and the transport for call `i`, and of the local runner's task
for it, without failures. -/
def isHostWork (i : Nat) : HostAct → Bool
  | .stk (.eng .enter) | .stk (.eng .timer) | .stk (.eng .jobSignal) | .stk (.eng .recv) => true
  | .stk (.net j a) => j == i && isPipeline a
  | .spawned j _ _ => j == i
  | .loc j a => j == i && a.own && !isFailure a
  | _ => false

/-- Moves that leave call `i` alone: those of other calls, and notifications. -/
def isHostElsewhere (i : Nat) : HostAct → Bool
  | .stk (.net j _) | .stk (.signalFailed j _) | .spawned j _ _ | .loc j _ => j != i
  | .stk (.stepCompleted _ _) => true
  | _ => false

/-- Only the tasks move, nothing fails; the process of call `i` does nothing, and no time passes. -/
def HostUndisturbed (i : Nat) (acts : List HostAct) : Prop := ∀ a ∈ acts, isHostWork i a = true ∨ isHostElsewhere i a = true

/-- Everyone's moves while a step is executed by call `i`, except that its process does not exit and that neither the network, nor the
server, nor the operating system fails on its behalf. -/
def sparesCall (i : Nat) : HostAct → Bool
  | .stk (.eng (.nextStep _ _)) | .stk (.eng .finishJob) => false
  | .stk b => (movesOf i [b]).all fun a => !isFault a
  | .loc j (.exit _) => j != i
  | .loc j a => j != i || !isFailure a
  | _ => true

/-- The process of call `i` writes something. -/
def writesThere (i : Nat) : HostAct → Bool
  | .loc j (.childOut _) | .loc j (.childErr _) => j == i
  | _ => false

end AstroRun.Spec
