import Verif.Spec.LocalEngine
import Verif.Spec.SystemAlone

/-! # Specification vocabulary: a step executed by a busy engine on the local runner -/

namespace AstroRun.Spec
open AstroRun

/-- The moves by which a job run executes a step, and announces what it has decided. -/
def isReading : TaskAct → Bool
  | .emit | .enter | .timer | .jobSignal | .recv => true
  | _ => false

/-- The moves of job run `i` of run `r` while it executes a step, and of the `n`-th task the runner spawned for it, without
failures of the operating system. -/
def stepWork (r i n : Nat) : EngineAct → Bool
  | .sys (.task r' i' a) => r' == r && i' == i && isReading a
  | .loc r' i' n' a => r' == r && i' == i && n' == n && a.own && !isFailure a
  | _ => false

/-- Moves of everyone else: of other job runs and workflows, of the runner and its tasks for them, and calls of the API
about them (job run `i` of run `r` runs job `j`). No time passes. -/
def stepElsewhere (r i n : Nat) (j : JobId) : EngineAct → Bool
  | .sys (.start _) | .sys (.main _ _) => true
  | .sys (.task r' i' _) | .spawned r' i' _ _ => !(r' == r && i' == i)
  | .sys (.cancel j') => decide (j' ≠ j)
  | .sys (.tick _) => false
  | .loc r' i' n' _ => !(r' == r && i' == i && n' == n)

/-- Everyone's moves, except that job run `i` of run `r` does not begin its next step, the process of the runner's `n`-th
task for it does not exit and the operating system does not fail on its behalf. -/
def sparesStep (r i n : Nat) : EngineAct → Bool
  | .sys (.task r' i' (.nextStep _ _)) | .sys (.task r' i' .finishJob) => !(r' == r && i' == i)
  | .loc r' i' n' (.exit _) => !(r' == r && i' == i && n' == n)
  | .loc r' i' n' a => !(r' == r && i' == i && n' == n) || !isFailure a
  | _ => true

/-- The process of that task writes something. -/
def stepOutput (r i n : Nat) : EngineAct → Bool
  | .loc r' i' n' (.childOut _) | .loc r' i' n' (.childErr _) => r' == r && i' == i && n' == n
  | _ => false

/-- Job run `i` of run `r`, which was `t`, has ended the step it was executing with result `x` (and is announcing it, or has). -/
def StepEnded (t : SysTask) (E' : LocalEngine) (r i : Nat) (x : StepRunResult) : Prop :=
  ∃ t', taskAt E'.sys r i = some t' ∧ t'.results = t.results ++ [x] ∧ (t'.pc = .next ∨ ∃ es, t'.pc = .emitting es .next)

end AstroRun.Spec
