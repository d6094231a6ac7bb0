import Verif.Model.LocalStack
import Verif.Spec.JobMachine
import Verif.Spec.LocalRun

/-! # Specification vocabulary: a job on the local runner -/

namespace AstroRun.Spec
open AstroRun

/-- `s` is a state the schedule `acts` leads to. -/
def StackReach (setup : LocalSetup) (job : Job) (t : Time) (acts : List StackAct) (s : LocalStack) : Prop :=
  runs LocalStack.step (LocalStack.initial setup job t) acts = some s

/-- The engine is executing step `st`, and `l` is the state of the runner's task (with plan `p`) that does it. -/
def Executing (s : LocalStack) (st : Step) (p : RunPlan) (l : LocalRun) : Prop :=
  ((∃ t0, s.eng.pc = .handling st t0) ∨ ∃ t0 d, s.eng.pc = .select st t0 d) ∧ s.tasks.getLast? = some (p, l)

/-- The step has ended: it is no longer executed, and `r` is its result. -/
def EndedWith (before after : LocalStack) (r : StepRunResult) : Prop :=
  after.eng.pc = .next ∧ after.eng.acc.results = before.eng.acc.results ++ [r]

/-- The moves of the engine's task and of task `k` of the runner, without failures of the operating system. -/
def isWork (k : Nat) : StackAct → Bool
  | .eng .enter | .eng .timer | .eng .jobSignal | .eng .recv => true
  | .loc i a => i == k && a.own && !isFailure a
  | _ => false

/-- Moves that leave the execution by task `k` alone: those of other tasks, and for other jobs. -/
def isElsewhere (k : Nat) : StackAct → Bool
  | .loc i _ => i != k
  | .others _ => true
  | _ => false

/-- Only the engine and the tasks of the runner move, nothing fails; no process of task `k` does anything, and
no time passes. -/
def Undisturbed (k : Nat) (acts : List StackAct) : Prop := ∀ a ∈ acts, isWork k a = true ∨ isElsewhere k a = true

/-- The plan of a task is one for step `st` (see `startRun`). -/
def PlanFor (setup : LocalSetup) (st : Step) (p : RunPlan) : Prop :=
  ∃ past mem envs, p = (startRun setup.os setup.arch setup.workingDirectory setup.plugins past mem
    { command := st.toCommand, event := setup.event } envs).2

/-- The process of the task has been started and runs; the task waits for it. -/
def Running (l : LocalRun) : Prop :=
  (l.pc = .select .reading ∨ l.pc = .select .waiting) ∧ ∃ ch, l.child = some ch ∧ ch.exit = none

/-- Everyone's moves while a step is executed by task `k`, except that its process does not exit and the operating
system does not fail on its behalf. -/
def sparesTask (k : Nat) : StackAct → Bool
  | .eng (.nextStep _ _) | .eng .finishJob => false
  | .loc i (.exit _) => i != k
  | .loc i a => i != k || !isFailure a
  | _ => true

/-- The process of task `k` writes something. -/
def isOutput (k : Nat) : StackAct → Bool
  | .loc i (.childOut _) | .loc i (.childErr _) => i == k
  | _ => false

end AstroRun.Spec
