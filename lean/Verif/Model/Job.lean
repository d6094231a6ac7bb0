import Verif.Model.Plugin

/-!
# Running a step and a job: the sequential view

`ExecutionContext::run` and `Job::run` as functions of what the surroundings decide: the answers of the
condition checks, what the runner does with each step, what the before-step hooks make of it, and the clock.
The concurrent machine behind it (signals, timeouts, the log stream) is in `Verif.Model.JobMachine`, and
`Verif.Props.JobMachine` proves that each of its complete runs is a value of these functions.
-/

namespace AstroRun

/-- What `Runner::run` and the stream it returned amount to. -/
inductive RunnerOutcome
  /-- `Runner::run` returned `Err` -/
  | refused (e : Error)
  /-- the stream delivered `logs`, then ended with `r` -/
  | ended (logs : List Log) (r : RunResult)
  deriving DecidableEq, Repr, Inhabited

/-- Everything the surroundings decide about one step. -/
structure StepEnv where
  /-- the answer of `is_match`, if asked -/
  condition : Bool := true
  /-- what the before-step hooks turn the step into -/
  before : Step → Step := id
  outcome : RunnerOutcome := .ended [] .succeeded
  startedAt : Time := 0
  completedAt : Time := 0
  deriving Inhabited

/-- Everything the surroundings decide about one job run. -/
structure JobEnv where
  condition : Bool := true
  startedAt : Time := 0
  completedAt : Time := 0
  step : Nat → StepEnv := fun _ => {}
  deriving Inhabited

/-- The same surroundings with the before-step rewriting `f`. -/
def StepEnv.withBefore (e : StepEnv) (f : Step → Step) : StepEnv :=
  { condition := e.condition, before := f, outcome := e.outcome, startedAt := e.startedAt,
    completedAt := e.completedAt }

/-- The same surroundings with the before-step rewriting `f` for every step. -/
def JobEnv.withBefore (env : JobEnv) (f : Step → Step) : JobEnv :=
  { condition := env.condition, startedAt := env.startedAt, completedAt := env.completedAt,
    step := fun i => (env.step i).withBefore f }

/-- `should_skip` of steps (step.rs:19-25), jobs (job.rs:124-130) and workflows (workflow/mod.rs:163-169);
`answer` is what `is_match` says if there is a condition. -/
def shouldSkip (on : Option Condition) (answer : Bool) : Bool :=
  match on with
  | some _ => !answer
  | none => false

/-- crates/astro-run/src/execution_context/mod.rs:160-182 -/
def stepResult (id : StepId) (r : RunResult) (startedAt completedAt : Time) : StepRunResult :=
  match r with
  | .succeeded => { id := id, state := .succeeded, exitCode := none,
                    startedAt := some startedAt, completedAt := some completedAt }
  | .failed c => { id := id, state := .failed, exitCode := some c,
                   startedAt := some startedAt, completedAt := some completedAt }
  | .cancelled => { id := id, state := .cancelled, exitCode := none,
                    startedAt := some startedAt, completedAt := some completedAt }

/-- crates/astro-run/src/execution_context/mod.rs:87-93 -/
def refusedResult (id : StepId) (startedAt completedAt : Time) : StepRunResult :=
  { id := id, state := .failed, exitCode := some 1, startedAt := some startedAt, completedAt := some completedAt }

/-- crates/astro-run/src/execution_context/mod.rs:25-196 (`ExecutionContext::run`): notifications and result. -/
def stepRun (e : StepEnv) (step : Step) : List Event × StepRunResult :=
  let s := e.before step
  let head := [.runStep s, .stepState s.id .queued, .runnerRun s.toCommand]
  match e.outcome with
  | .refused _ =>
    let r := refusedResult s.id e.startedAt e.completedAt
    (head ++ [.stepState s.id .failed, .stepCompleted r], r)
  | .ended logs res =>
    let r := stepResult s.id res e.startedAt e.completedAt
    (head ++ [.stepState s.id .inProgress] ++ logs.map (.log s.id) ++
      [.stepState s.id r.state, .stepCompleted r], r)

/-- The loop variables of `Job::run`: notifications issued, step results, `job_state`. -/
structure JobAcc where
  trace : List Event
  results : List StepRunResult
  state : WorkflowState
  deriving DecidableEq, Repr

/-- crates/astro-run/src/workflow/job.rs:53-61 -/
def stepSkipped (jobState : WorkflowState) (s : Step) (answer : Bool) : Bool :=
  (match jobState with
    | .failed => !s.continueOnError
    | .cancelled | .skipped => true
    | _ => false) || shouldSkip s.on answer

/-- crates/astro-run/src/workflow/job.rs:73-79 -/
def skippedResult (id : StepId) : StepRunResult :=
  { id := id, state := .skipped, exitCode := none, startedAt := none, completedAt := none }

/-- crates/astro-run/src/workflow/job.rs:85-93 -/
def nextJobState (jobState : WorkflowState) (r : StepRunResult) : WorkflowState :=
  match r.state with
  | .failed => .failed
  | .cancelled => .cancelled
  | _ => jobState

/-- crates/astro-run/src/workflow/job.rs:52-96: one iteration of the step loop. -/
def JobAcc.step (acc : JobAcc) (p : Step × StepEnv) : JobAcc :=
  if stepSkipped acc.state p.1 p.2.condition then
    { acc with
      trace := acc.trace ++ [.stepState p.1.id .skipped]
      results := acc.results ++ [skippedResult p.1.id] }
  else
    let (ev, r) := stepRun p.2 p.1
    { trace := acc.trace ++ ev, results := acc.results ++ [r], state := nextJobState acc.state r }

/-- crates/astro-run/src/workflow/job.rs:38-50: before the step loop. -/
def JobAcc.start (id : JobId) : JobAcc :=
  { trace := [.runJob id, .jobState id .inProgress], results := [], state := .inProgress }

/-- crates/astro-run/src/workflow/job.rs:98-121: after the step loop. -/
def JobAcc.finish (acc : JobAcc) (id : JobId) (startedAt completedAt : Time) : List Event × JobRunResult :=
  let st := if acc.state.isInProgress then .succeeded else acc.state
  let r : JobRunResult := { id := id, state := st, startedAt := some startedAt,
                            completedAt := some completedAt, steps := acc.results }
  (acc.trace ++ [.jobState id st, .jobCompleted r], r)

/-- crates/astro-run/src/workflow/job.rs:29-35 -/
def skippedJobResult (id : JobId) : JobRunResult :=
  { id := id, state := .skipped, startedAt := none, completedAt := none, steps := [] }

/-- The steps of a job paired with what the surroundings decide about them. -/
def Job.stepEnvs (job : Job) (env : JobEnv) : List (Step × StepEnv) :=
  job.steps.zipIdx.map fun p => (p.1, env.step p.2)

/-- crates/astro-run/src/workflow/job.rs:20-122 (`Job::run`): notifications and result. -/
def jobRun (env : JobEnv) (job : Job) : List Event × JobRunResult :=
  if shouldSkip job.on env.condition then
    ([.jobState job.id .skipped], skippedJobResult job.id)
  else
    ((job.stepEnvs env).foldl JobAcc.step (JobAcc.start job.id)).finish job.id env.startedAt env.completedAt

/-! ## The same code with the hook calls spelled out

Every `call_on_*` goes through `HookWorld.notify`, whose hooks may fail. -/

/-- execution_context/mod.rs:58-67: the call of `Runner::run`, which only the runner sees. -/
def HookWorld.runnerRun (w : HookWorld) (runnerPos : Nat) (c : Command) : HookWorld :=
  { w with calls := w.calls ++ [(runnerPos, .runnerRun c)] }

/-- execution_context/mod.rs:25-196 with hooks. -/
def stepRunH (plugins : List Observer) (runner : Observer) (w : HookWorld) (e : StepEnv) (step : Step) :
    HookWorld × StepRunResult :=
  let n := HookWorld.notify plugins runner
  let s := callBeforeRunStep plugins runner step
  let w := n w (.runStep s)
  let w := n w (.stepState s.id .queued)
  let w := w.runnerRun plugins.length s.toCommand
  match e.outcome with
  | .refused _ =>
    let w := n w (.stepState s.id .failed)
    let r := refusedResult s.id e.startedAt e.completedAt
    (n w (.stepCompleted r), r)
  | .ended logs res =>
    let w := n w (.stepState s.id .inProgress)
    let w := logs.foldl (fun w l => n w (.log s.id l)) w
    let r := stepResult s.id res e.startedAt e.completedAt
    let w := n w (.stepState s.id r.state)
    (n w (.stepCompleted r), r)

/-- job.rs:52-96 with hooks. -/
def jobLoopH (plugins : List Observer) (runner : Observer) :
    List (Step × StepEnv) → HookWorld → List StepRunResult → WorkflowState →
    HookWorld × List StepRunResult × WorkflowState
  | [], w, rs, st => (w, rs, st)
  | (s, e) :: rest, w, rs, st =>
    if stepSkipped st s e.condition then
      jobLoopH plugins runner rest (HookWorld.notify plugins runner w (.stepState s.id .skipped))
        (rs ++ [skippedResult s.id]) st
    else
      let (w, r) := stepRunH plugins runner w e s
      jobLoopH plugins runner rest w (rs ++ [r]) (nextJobState st r)

/-- job.rs:20-122 with hooks. -/
def jobRunH (plugins : List Observer) (runner : Observer) (w : HookWorld) (env : JobEnv) (job : Job) :
    HookWorld × JobRunResult :=
  let n := HookWorld.notify plugins runner
  if shouldSkip job.on env.condition then
    (n w (.jobState job.id .skipped), skippedJobResult job.id)
  else
    let w := n w (.runJob job.id)
    let w := n w (.jobState job.id .inProgress)
    let (w, rs, st) := jobLoopH plugins runner (job.stepEnvs env) w [] .inProgress
    let st := if st.isInProgress then .succeeded else st
    let w := n w (.jobState job.id st)
    let r : JobRunResult := { id := job.id, state := st, startedAt := some env.startedAt,
                              completedAt := some env.completedAt, steps := rs }
    (n w (.jobCompleted r), r)

end AstroRun
