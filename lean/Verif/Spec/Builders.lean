import Verif.Model.Builders

/-! # Specification vocabulary: builders, plugins of the local runner -/

namespace AstroRun.Spec
open AstroRun

/-- The last value `f` gives on the list. -/
def lastSome {α β : Type} (f : α → Option β) (l : List α) : Option β := (l.filterMap f).getLast?

/-- Passing a context through the plugins of the local runner: `Through past i ps c cs` says that the plugins `ps`,
numbered from `i`, see the contexts `cs` but for the last one, which is the outcome.  A plugin's answer is taken
if it succeeds, otherwise the context stays. -/
inductive Through (past : Nat → List RunnerContext) : Nat → List RunnerPlugin → RunnerContext → List RunnerContext → Prop
  | nil (i c) : Through past i [] c [c]
  | ok (i p ps c c' cs) : p.before (past i) c = .ok c' → Through past (i + 1) ps c' cs →
      Through past i (p :: ps) c (c :: cs)
  | failed (i p ps c e cs) : p.before (past i) c = .error e → Through past (i + 1) ps c cs →
      Through past i (p :: ps) c (c :: cs)

/-- Which hook a notification is for. -/
inductive BelongsTo : Event → HookKind → Prop
  | runWorkflow (id) : BelongsTo (.runWorkflow id) .runWorkflow
  | runJob (id) : BelongsTo (.runJob id) .runJob
  | runStep (s) : BelongsTo (.runStep s) .runStep
  | workflowState (id st) : BelongsTo (.workflowState id st) .stateChange
  | jobState (id st) : BelongsTo (.jobState id st) .stateChange
  | stepState (id st) : BelongsTo (.stepState id st) .stateChange
  | log (id l) : BelongsTo (.log id l) .log
  | stepCompleted (r) : BelongsTo (.stepCompleted r) .stepCompleted
  | jobCompleted (r) : BelongsTo (.jobCompleted r) .jobCompleted
  | workflowCompleted (r) : BelongsTo (.workflowCompleted r) .workflowCompleted

/-- What happens to the local runner's memory: a step is run (with its trigger event), or a workflow completes. -/
inductive MemOp
  | run (c : Command) (ev : Option TriggerEvent)
  | completed (w : WorkflowId)

/-- The memory after a history; completion does not change it (astro_runner.rs:100-116). -/
def memHistory (ops : List MemOp) : RunnerMem :=
  ops.foldl (fun m o => match o with
    | .run c ev => m.noteRun c ev
    | .completed _ => m) {}

end AstroRun.Spec
