/-!
# Shared data types of astro-run

Plain data types of the `astro-run` crate.  Simplifications common to all of them:
`i32`/`i64` are `Int`, `usize` is `Nat` (its 64-bit bound is stated where it matters),
`chrono::DateTime` and `Duration` are `Nat` ticks, and a `HashMap<String, V>` is a list of
key/value pairs in *some* iteration order (theorems quantify over every list, hence over every order).
-/

deriving instance DecidableEq for Except

namespace AstroRun

/-- crates/astro-run/src/types/results.rs:5 (`Time`); ticks of a clock. -/
abbrev Time := Nat

/-- crates/astro-run/src/types/id.rs:4 -/
abbrev Id := String

/-- crates/astro-run/src/types/error.rs:1-23.  Simplification: the wrapped `std::io::Error` is a text. -/
inductive Error
  | workflowConfigError (m : String)
  | internalRuntimeError (m : String)
  | failed (code : Nat)
  | error (m : String)
  | ioError (m : String)
  | initError (m : String)
  | unsupportedFeature (m : String)
  deriving DecidableEq, Repr, Inhabited

/-- crates/astro-run/src/types/workflow_state.rs:3-13 -/
inductive WorkflowState
  | pending | queued | inProgress | succeeded | failed | cancelled | skipped
  deriving DecidableEq, Repr, Inhabited

/-- crates/astro-run/src/types/workflow_state.rs:16-24 -/
def WorkflowState.isTerminal : WorkflowState → Bool
  | .succeeded | .failed | .cancelled | .skipped => true
  | .pending | .queued | .inProgress => false

/-- crates/astro-run/src/types/workflow_state.rs:26-28 -/
def WorkflowState.isInProgress : WorkflowState → Bool
  | .inProgress => true
  | _ => false

/-- crates/astro-run/src/types/workflow_state.rs:30-32 -/
def WorkflowState.isQueued : WorkflowState → Bool
  | .queued => true
  | _ => false

/-- crates/astro-run/src/types/mod.rs:35-40 -/
inductive LogType
  | error | log
  deriving DecidableEq, Repr, Inhabited

/-- crates/astro-run/src/runner.rs:15-19 -/
structure Log where
  logType : LogType
  message : String
  deriving DecidableEq, Repr, Inhabited

/-- crates/astro-run/src/runner.rs:23-28 -/
def Log.ofLog (m : String) : Log := ⟨.log, m⟩

/-- crates/astro-run/src/runner.rs:30-35 -/
def Log.ofError (m : String) : Log := ⟨.error, m⟩

/-- crates/astro-run/src/runner.rs:37-39 -/
def Log.isError (l : Log) : Bool := l.logType == .error

/-- crates/astro-run/src/runner.rs:8-13 -/
inductive RunResult
  | succeeded
  | failed (exitCode : Int)
  | cancelled
  deriving DecidableEq, Repr, Inhabited

/-- crates/astro-run/src/signals/signal.rs:10-14 -/
inductive Signal
  | cancel | timeout
  deriving DecidableEq, Repr, Inhabited

/-- crates/astro-run/src/types/id.rs:6-7 -/
structure WorkflowId where
  id : Id
  deriving DecidableEq, Repr, Inhabited

/-- crates/astro-run/src/types/id.rs:9-10 -/
structure JobId where
  workflow : Id
  job : Id
  deriving DecidableEq, Repr, Inhabited

/-- crates/astro-run/src/types/id.rs:12-13 -/
structure StepId where
  workflow : Id
  job : Id
  number : Nat
  deriving DecidableEq, Repr, Inhabited

/-- crates/astro-run/src/types/id.rs:30-32 -/
def JobId.workflowId (j : JobId) : WorkflowId := ⟨j.workflow⟩

/-- crates/astro-run/src/types/id.rs:44-46 -/
def StepId.workflowId (s : StepId) : WorkflowId := ⟨s.workflow⟩

/-- crates/astro-run/src/types/id.rs:48-50 -/
def StepId.jobId (s : StepId) : JobId := ⟨s.workflow, s.job⟩

/-- crates/astro-run/src/types/trigger_event.rs:3-14 -/
structure TriggerEvent where
  event : String
  repoOwner : String
  repoName : String
  prNumber : Option Int
  sha : String
  branch : String
  refName : String
  deriving DecidableEq, Repr, Inhabited

/-- crates/astro-run/src/types/condition.rs:10-15 (and the identical 17-23 for pull requests). -/
structure BranchCondition where
  branches : Option (List String)
  paths : Option (List String)
  deriving DecidableEq, Repr, Inhabited

/-- crates/astro-run/src/types/condition.rs:25-29 -/
structure ConditionConfig where
  push : Option BranchCondition
  pullRequest : Option BranchCondition
  deriving DecidableEq, Repr, Inhabited

/-- crates/astro-run/src/types/condition.rs:31-38 -/
inductive Condition
  | event (names : List String)
  | config (c : ConditionConfig)
  deriving DecidableEq, Repr, Inhabited

/-- crates/astro-run/src/user_config.rs:5-11 -/
structure ContainerOptions where
  name : String
  volumes : Option (List String)
  securityOpts : Option (List String)
  deriving DecidableEq, Repr, Inhabited

/-- crates/astro-run/src/types/envs.rs:4-10.  Simplification: an `f64` is represented by the text its
`Display` prints, since the program only ever prints it. -/
inductive EnvironmentVariable
  | string (s : String)
  | number (shown : String)
  | boolean (b : Bool)
  deriving DecidableEq, Repr, Inhabited

/-- crates/astro-run/src/types/envs.rs:12-20 -/
def EnvironmentVariable.toStr : EnvironmentVariable → String
  | .string s => s
  | .number n => n
  | .boolean true => "true"
  | .boolean false => "false"

/-- crates/astro-run/src/types/envs.rs:46 (`HashMap<String, EnvironmentVariable>`). -/
abbrev EnvironmentVariables := List (String × EnvironmentVariable)

/-- crates/astro-run/src/workflow/step.rs:5-16 -/
structure Step where
  id : StepId
  name : Option String := none
  on : Option Condition := none
  container : Option ContainerOptions := none
  run : String := ""
  continueOnError : Bool := false
  environments : EnvironmentVariables := []
  secrets : List String := []
  timeout : Nat := 0
  deriving DecidableEq, Repr, Inhabited

/-- crates/astro-run/src/types/context.rs:5-15 -/
structure Command where
  id : StepId
  name : Option String := none
  container : Option ContainerOptions := none
  run : String := ""
  continueOnError : Bool := false
  environments : EnvironmentVariables := []
  secrets : List String := []
  timeout : Nat := 0
  deriving DecidableEq, Repr, Inhabited

/-- crates/astro-run/src/workflow/step.rs:28-41 -/
def Step.toCommand (s : Step) : Command :=
  { id := s.id, name := s.name, container := s.container, run := s.run,
    continueOnError := s.continueOnError, environments := s.environments,
    secrets := s.secrets, timeout := s.timeout }

/-- crates/astro-run/src/workflow/step.rs:43-57 -/
def Command.toStep (c : Command) : Step :=
  { id := c.id, name := c.name, container := c.container, run := c.run,
    continueOnError := c.continueOnError, environments := c.environments,
    secrets := c.secrets, timeout := c.timeout, on := none }

/-- crates/astro-run/src/workflow/job.rs:8-17 -/
structure Job where
  id : JobId
  name : Option String := none
  on : Option Condition := none
  steps : List Step := []
  dependsOn : List String := []
  workingDirectories : List String := []
  deriving DecidableEq, Repr, Inhabited

/-- crates/astro-run/src/workflow/mod.rs:19-25.  `jobs` in some iteration order of the `HashMap`. -/
structure Workflow where
  id : WorkflowId
  name : Option String := none
  on : Option Condition := none
  jobs : List (Id × Job) := []
  deriving DecidableEq, Repr, Inhabited

/-- crates/astro-run/src/types/results.rs:7-14 -/
structure StepRunResult where
  id : StepId
  state : WorkflowState
  exitCode : Option Int
  startedAt : Option Time
  completedAt : Option Time
  deriving DecidableEq, Repr, Inhabited

/-- crates/astro-run/src/types/results.rs:16-23 -/
structure JobRunResult where
  id : JobId
  state : WorkflowState
  startedAt : Option Time
  completedAt : Option Time
  steps : List StepRunResult
  deriving DecidableEq, Repr, Inhabited

/-- crates/astro-run/src/types/results.rs:25-32 -/
structure WorkflowRunResult where
  id : WorkflowId
  state : WorkflowState
  startedAt : Option Time
  completedAt : Option Time
  jobs : List (Id × JobRunResult)
  deriving DecidableEq, Repr, Inhabited

/-- The notifications an observer (plugin or runner) can receive while a workflow runs, in the order
the execution context issues them: crates/astro-run/src/execution_context/mod.rs:206-295.
`runnerRun` is the call of `Runner::run` itself (58-67).  Simplification: trigger event and payload
are constant during a run and left out. -/
inductive Event
  | runWorkflow (id : WorkflowId)
  | workflowState (id : WorkflowId) (s : WorkflowState)
  | workflowCompleted (r : WorkflowRunResult)
  | runJob (id : JobId)
  | jobState (id : JobId) (s : WorkflowState)
  | jobCompleted (r : JobRunResult)
  | runStep (s : Step)
  | stepState (id : StepId) (s : WorkflowState)
  | runnerRun (c : Command)
  | log (id : StepId) (l : Log)
  | stepCompleted (r : StepRunResult)
  deriving DecidableEq, Repr, Inhabited

end AstroRun
