import Verif.Model.Job

/-! # Specification vocabulary: job runs -/

namespace AstroRun.Spec
open AstroRun

/-- Some step result in the list has this state. -/
def Has (rs : List StepRunResult) (st : WorkflowState) : Prop := ∃ r ∈ rs, r.state = st

instance (rs : List StepRunResult) (st : WorkflowState) : Decidable (Has rs st) :=
  inferInstanceAs (Decidable (∃ r ∈ rs, r.state = st))

/-- The state of something that was run to its end. -/
def Over (st : WorkflowState) : Prop := st = .succeeded ∨ st = .failed ∨ st = .cancelled

/-- Step result `r` reports what the runner ended the step with. -/
def Reports (res : RunResult) (r : StepRunResult) : Prop :=
  match res with
  | .succeeded => r.state = .succeeded ∧ r.exitCode = none
  | .failed code => r.state = .failed ∧ r.exitCode = some code
  | .cancelled => r.state = .cancelled ∧ r.exitCode = none

/-- The step's own condition holds: it has none, or the check answered yes. -/
def Matches (on : Option Condition) (answer : Bool) : Prop := on = none ∨ answer = true

/-- What observers see of one executed step `s` whose result is `r`: announced, queued, handed to the runner,
then either refused, or in progress with its logs and one terminal state; completion last. -/
inductive StepBlock (s : Step) (r : StepRunResult) : List Event → Prop
  | refused : r.state = .failed →
      StepBlock s r [.runStep s, .stepState s.id .queued, .runnerRun s.toCommand,
        .stepState s.id .failed, .stepCompleted r]
  | ran (logs : List Log) : Over r.state →
      StepBlock s r ([.runStep s, .stepState s.id .queued, .runnerRun s.toCommand,
        .stepState s.id .inProgress] ++ logs.map (.log s.id) ++ [.stepState s.id r.state, .stepCompleted r])

/-- The commands given to `Runner::run`, in order. -/
def runnerCalls (tr : List Event) : List Command :=
  tr.filterMap fun | .runnerRun c => some c | _ => none

/-- The states announced for a step id, in order. -/
def statesOf (id : StepId) (tr : List Event) : List WorkflowState :=
  tr.filterMap fun | .stepState i st => if i = id then some st else none | _ => none

/-- The logs announced for a step id, in order. -/
def logsOf (id : StepId) (tr : List Event) : List Log :=
  tr.filterMap fun | .log i l => if i = id then some l else none | _ => none

end AstroRun.Spec
