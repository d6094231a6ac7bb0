import Verif.Model.Types
import Verif.Model.Signal
import Verif.Model.Scheduler

/-!
# The wire format of the remote protocol

crates/protocol/src/lib.rs and common/json_codec.rs: every message is written with `serde_json::to_writer` and read
with `serde_json::from_reader` (json_codec.rs:13-15 and 25-33).  Modelled here: the mapping between each message type
and a JSON value that the serde attributes in /repo define.  The text of a JSON value is in
`Model/JsonText`.  Not modelled here: the ranges of machine integers, which an encoded message cannot run into.  The text of a time (chrono) and the user's payload type (typetag) are parameters.
-/

namespace AstroRun.Wire

/-- A JSON value.  `float` carries the shortest text of a finite `f64`. -/
inductive Json
  | null
  | bool (b : Bool)
  | int (n : Int)
  | float (shown : String)
  | str (s : String)
  | arr (l : List Json)
  | obj (l : List (String × Json))
  deriving Inhabited

/-- What depends on other crates: the text of a time (chrono's `Serialize` for `DateTime<Utc>`) and the user's payload
(crates/astro-run/src/execution_context/context_payload.rs:4-10). -/
structure Ext (Pl : Type) where
  showTime : Time → String
  parseTime : String → Option Time
  encPayload : Pl → Json
  decPayload : Json → Option Pl

/-! ## Building blocks of serde -/

/-- A field of an object. -/
def fld (o : List (String × Json)) (k : String) : Option Json := (o.find? fun e => e.1 == k).map Prod.snd

/-- None of the names `ks` is repeated. -/
def onceEach (ks names : List String) : Bool := ks.all fun k => names.count k ≤ 1

/-- The fields of a struct with the fields `ks`: those of a mapping, which may not repeat one of them ("duplicate field"),
or the values of a sequence with one for each field, in the order of the struct (a derived `Deserialize` has `visit_map`
and `visit_seq`). -/
def fieldsOf (ks : List String) : Json → Option (List (String × Json))
  | .obj o => if onceEach ks (o.map Prod.fst) then some o else none
  | .arr l => if l.length = ks.length then some (ks.zip l) else none
  | _ => none

/-- The name of a variant without fields: a text, or a mapping from it to `null`. -/
def unitName : Json → Option String
  | .str s => some s
  | .obj [(k, .null)] => some k
  | _ => none

def decStr : Json → Option String
  | .str s => some s
  | _ => none
def decBool : Json → Option Bool
  | .bool b => some b
  | _ => none
def decInt : Json → Option Int
  | .int n => some n
  | _ => none
/-- An unsigned number. -/
def decNat : Json → Option Nat
  | .int (.ofNat n) => some n
  | _ => none

/-- `Option<T>`: `null` is `None`. -/
def encOpt {α : Type} (enc : α → Json) : Option α → Json
  | none => .null
  | some a => enc a
/-- `Option<T>`, also for a missing field. -/
def decOpt {α : Type} (dec : Json → Option α) : Option Json → Option (Option α)
  | none => some none
  | some .null => some none
  | some j => (dec j).map some

/-- `Vec<T>` -/
def encList {α : Type} (enc : α → Json) (l : List α) : Json := .arr (l.map enc)
def decAll {α : Type} (dec : Json → Option α) : List Json → Option (List α)
  | [] => some []
  | j :: js => do
    let a ← dec j
    let as ← decAll dec js
    return a :: as
def decList {α : Type} (dec : Json → Option α) : Json → Option (List α)
  | .arr l => decAll dec l
  | _ => none

/-- `HashMap<String, T>`: an entry that is read later replaces an earlier one of the same key. -/
def put {α : Type} (m : List (String × α)) (k : String) (v : α) : List (String × α) :=
  if m.any (fun e => e.1 == k) then m.map (fun e => if e.1 == k then (k, v) else e) else m ++ [(k, v)]
def encMap {α : Type} (enc : α → Json) (l : List (String × α)) : Json := .obj (l.map fun e => (e.1, enc e.2))
def decEntries {α : Type} (dec : Json → Option α) (acc : List (String × α)) :
    List (String × Json) → Option (List (String × α))
  | [] => some acc
  | (k, j) :: es => do
    let v ← dec j
    decEntries dec (put acc k v) es
def decMap {α : Type} (dec : Json → Option α) : Json → Option (List (String × α))
  | .obj l => decEntries dec [] l
  | _ => none

/-! ## Types of astro-run -/

/-- crates/astro-run/src/types/id.rs:6-7: a newtype struct is its content. -/
def encWorkflowId (i : WorkflowId) : Json := .str i.id
def decWorkflowId (j : Json) : Option WorkflowId := (decStr j).map .mk

/-- crates/astro-run/src/types/id.rs:9-10: a tuple struct is an array. -/
def encJobId (i : JobId) : Json := .arr [.str i.workflow, .str i.job]
def decJobId : Json → Option JobId
  | .arr [w, j] => do
    let w ← decStr w
    let j ← decStr j
    return ⟨w, j⟩
  | _ => none

/-- crates/astro-run/src/types/id.rs:12-13 -/
def encStepId (i : StepId) : Json := .arr [.str i.workflow, .str i.job, .int i.number]
def decStepId : Json → Option StepId
  | .arr [w, j, n] => do
    let w ← decStr w
    let j ← decStr j
    let n ← decNat n
    return ⟨w, j, n⟩
  | _ => none

/-- crates/astro-run/src/types/workflow_state.rs:3-13 (`rename_all = "snake_case"`) -/
def encState : WorkflowState → Json
  | .pending => .str "pending"
  | .queued => .str "queued"
  | .inProgress => .str "in_progress"
  | .succeeded => .str "succeeded"
  | .failed => .str "failed"
  | .cancelled => .str "cancelled"
  | .skipped => .str "skipped"
def decState (v : Json) : Option WorkflowState :=
  match unitName v with
  | some "pending" => some .pending
  | some "queued" => some .queued
  | some "in_progress" => some .inProgress
  | some "succeeded" => some .succeeded
  | some "failed" => some .failed
  | some "cancelled" => some .cancelled
  | some "skipped" => some .skipped
  | _ => none

/-- crates/astro-run/src/types/mod.rs:35-40 (`rename_all = "snake_case"`) -/
def encLogType : LogType → Json
  | .error => .str "error"
  | .log => .str "log"
def decLogType (v : Json) : Option LogType :=
  match unitName v with
  | some "error" => some .error
  | some "log" => some .log
  | _ => none

/-- crates/astro-run/src/runner.rs:15-19 -/
def encLog (l : Log) : Json := .obj [("log_type", encLogType l.logType), ("message", .str l.message)]
def decLog (v : Json) : Option Log := do
  let o ← fieldsOf ["log_type", "message"] v
  let t ← (fld o "log_type").bind decLogType
  let m ← (fld o "message").bind decStr
  return ⟨t, m⟩

/-- crates/astro-run/src/runner.rs:8-13 -/
def encResult : RunResult → Json
  | .succeeded => .str "Succeeded"
  | .failed c => .obj [("Failed", .obj [("exit_code", .int c)])]
  | .cancelled => .str "Cancelled"
def decResult : Json → Option RunResult
  | .obj [("Failed", v)] => do
    let o ← fieldsOf ["exit_code"] v
    ((fld o "exit_code").bind decInt).map .failed
  | v => match unitName v with
    | some "Succeeded" => some .succeeded
    | some "Cancelled" => some .cancelled
    | _ => none

/-- crates/astro-run/src/signals/signal.rs:10-14 -/
def encSignal : Signal → Json
  | .cancel => .str "Cancel"
  | .timeout => .str "Timeout"
def decSignal (v : Json) : Option Signal :=
  match unitName v with
  | some "Cancel" => some .cancel
  | some "Timeout" => some .timeout
  | _ => none

/-- crates/astro-run/src/types/trigger_event.rs:3-14 -/
def encTrigger (t : TriggerEvent) : Json :=
  .obj [("event", .str t.event), ("repo_owner", .str t.repoOwner), ("repo_name", .str t.repoName),
    ("pr_number", encOpt .int t.prNumber), ("sha", .str t.sha), ("branch", .str t.branch), ("ref_name", .str t.refName)]
def decTrigger (v : Json) : Option TriggerEvent := do
  let o ← fieldsOf ["event", "repo_owner", "repo_name", "pr_number", "sha", "branch", "ref_name"] v
  let event ← (fld o "event").bind decStr
  let repoOwner ← (fld o "repo_owner").bind decStr
  let repoName ← (fld o "repo_name").bind decStr
  let prNumber ← decOpt decInt (fld o "pr_number")
  let sha ← (fld o "sha").bind decStr
  let branch ← (fld o "branch").bind decStr
  let refName ← (fld o "ref_name").bind decStr
  return { event, repoOwner, repoName, prNumber, sha, branch, refName }

/-- crates/astro-run/src/types/condition.rs:10-23 -/
def encBranch (b : BranchCondition) : Json :=
  .obj [("branches", encOpt (encList .str) b.branches), ("paths", encOpt (encList .str) b.paths)]
def decBranch (v : Json) : Option BranchCondition := do
  let o ← fieldsOf ["branches", "paths"] v
  let branches ← decOpt (decList decStr) (fld o "branches")
  let paths ← decOpt (decList decStr) (fld o "paths")
  return { branches, paths }

/-- crates/astro-run/src/types/condition.rs:25-29 -/
def encConfig (c : ConditionConfig) : Json :=
  .obj [("push", encOpt encBranch c.push), ("pull_request", encOpt encBranch c.pullRequest)]
def decConfig (v : Json) : Option ConditionConfig := do
  let o ← fieldsOf ["push", "pull_request"] v
  let push ← decOpt decBranch (fld o "push")
  let pullRequest ← decOpt decBranch (fld o "pull_request")
  return { push, pullRequest }

/-- crates/astro-run/src/types/condition.rs:31-38 (`untagged`: the first variant that fits) -/
def encCondition : Condition → Json
  | .event ns => encList .str ns
  | .config c => encConfig c
def decCondition (j : Json) : Option Condition :=
  match decList decStr j with
  | some ns => some (.event ns)
  | none => (decConfig j).map .config

/-- crates/astro-run/src/user_config.rs:5-11 -/
def encContainer (c : ContainerOptions) : Json :=
  .obj [("name", .str c.name), ("volumes", encOpt (encList .str) c.volumes),
    ("security-opts", encOpt (encList .str) c.securityOpts)]
def decContainer (v : Json) : Option ContainerOptions := do
  let o ← fieldsOf ["name", "volumes", "security-opts"] v
  let name ← (fld o "name").bind decStr
  let volumes ← decOpt (decList decStr) (fld o "volumes")
  let securityOpts ← decOpt (decList decStr) (fld o "security-opts")
  return { name, volumes, securityOpts }

/-- The `Display` of an `f64` that is not finite. -/
def notFinite (shown : String) : Bool := shown == "NaN" || shown == "inf" || shown == "-inf"

/-- crates/astro-run/src/types/envs.rs:4-10 (`untagged`).  serde_json writes a number that is not finite as `null`. -/
def encEnv : EnvironmentVariable → Json
  | .string s => .str s
  | .number n => if notFinite n then .null else .float n
  | .boolean b => .bool b
def decEnv : Json → Option EnvironmentVariable
  | .str s => some (.string s)
  | .float n => some (.number n)
  | .int n => some (.number (toString n))
  | .bool b => some (.boolean b)
  | _ => none

/-- `std::time::Duration`; a tick is a nanosecond. -/
def encDuration (t : Nat) : Json := .obj [("secs", .int (t / 1000000000 : Nat)), ("nanos", .int (t % 1000000000 : Nat))]
def decDuration (v : Json) : Option Nat := do
  let o ← fieldsOf ["secs", "nanos"] v
  let s ← (fld o "secs").bind decNat
  let n ← (fld o "nanos").bind decNat
  return s * 1000000000 + n

/-- crates/astro-run/src/types/context.rs:5-15 -/
def encCommand (c : Command) : Json :=
  .obj [("id", encStepId c.id), ("name", encOpt .str c.name), ("container", encOpt encContainer c.container),
    ("run", .str c.run), ("continue_on_error", .bool c.continueOnError), ("environments", encMap encEnv c.environments),
    ("secrets", encList .str c.secrets), ("timeout", encDuration c.timeout)]
def decCommand (v : Json) : Option Command := do
  let o ← fieldsOf ["id", "name", "container", "run", "continue_on_error", "environments", "secrets", "timeout"] v
  let id ← (fld o "id").bind decStepId
  let name ← decOpt decStr (fld o "name")
  let container ← decOpt decContainer (fld o "container")
  let run ← (fld o "run").bind decStr
  let continueOnError ← (fld o "continue_on_error").bind decBool
  let environments ← (fld o "environments").bind (decMap decEnv)
  let secrets ← (fld o "secrets").bind (decList decStr)
  let timeout ← (fld o "timeout").bind decDuration
  return { id, name, container, run, continueOnError, environments, secrets, timeout }

/-- crates/astro-run/src/workflow/step.rs:5-16 -/
def encStep (s : Step) : Json :=
  .obj [("id", encStepId s.id), ("name", encOpt .str s.name), ("on", encOpt encCondition s.on),
    ("container", encOpt encContainer s.container), ("run", .str s.run), ("continue_on_error", .bool s.continueOnError),
    ("environments", encMap encEnv s.environments), ("secrets", encList .str s.secrets),
    ("timeout", encDuration s.timeout)]
def decStep (v : Json) : Option Step := do
  let o ← fieldsOf ["id", "name", "on", "container", "run", "continue_on_error", "environments", "secrets", "timeout"] v
  let id ← (fld o "id").bind decStepId
  let name ← decOpt decStr (fld o "name")
  let on ← decOpt decCondition (fld o "on")
  let container ← decOpt decContainer (fld o "container")
  let run ← (fld o "run").bind decStr
  let continueOnError ← (fld o "continue_on_error").bind decBool
  let environments ← (fld o "environments").bind (decMap decEnv)
  let secrets ← (fld o "secrets").bind (decList decStr)
  let timeout ← (fld o "timeout").bind decDuration
  return { id, name, on, container, run, continueOnError, environments, secrets, timeout }

/-- crates/astro-run/src/workflow/job.rs:8-17 -/
def encJob (b : Job) : Json :=
  .obj [("id", encJobId b.id), ("name", encOpt .str b.name), ("on", encOpt encCondition b.on),
    ("steps", encList encStep b.steps), ("depends_on", encList .str b.dependsOn),
    ("working_directories", encList .str b.workingDirectories)]
def decJob (v : Json) : Option Job := do
  let o ← fieldsOf ["id", "name", "on", "steps", "depends_on", "working_directories"] v
  let id ← (fld o "id").bind decJobId
  let name ← decOpt decStr (fld o "name")
  let on ← decOpt decCondition (fld o "on")
  let steps ← (fld o "steps").bind (decList decStep)
  let dependsOn ← (fld o "depends_on").bind (decList decStr)
  let workingDirectories ← (fld o "working_directories").bind (decList decStr)
  return { id, name, on, steps, dependsOn, workingDirectories }

/-- crates/astro-run/src/workflow/mod.rs:19-25 -/
def encWorkflow (w : Workflow) : Json :=
  .obj [("id", encWorkflowId w.id), ("name", encOpt .str w.name), ("on", encOpt encCondition w.on),
    ("jobs", encMap encJob w.jobs)]
def decWorkflow (v : Json) : Option Workflow := do
  let o ← fieldsOf ["id", "name", "on", "jobs"] v
  let id ← (fld o "id").bind decWorkflowId
  let name ← decOpt decStr (fld o "name")
  let on ← decOpt decCondition (fld o "on")
  let jobs ← (fld o "jobs").bind (decMap decJob)
  return { id, name, on, jobs }

section
variable {Pl : Type} (x : Ext Pl)

/-- `chrono::DateTime<Utc>` -/
def encTime (t : Time) : Json := .str (x.showTime t)
def decTime : Json → Option Time
  | .str s => x.parseTime s
  | _ => none

/-- crates/astro-run/src/types/results.rs:7-14 -/
def encStepResult (r : StepRunResult) : Json :=
  .obj [("id", encStepId r.id), ("state", encState r.state), ("exit_code", encOpt .int r.exitCode),
    ("started_at", encOpt (encTime x) r.startedAt), ("completed_at", encOpt (encTime x) r.completedAt)]
def decStepResult (v : Json) : Option StepRunResult := do
  let o ← fieldsOf ["id", "state", "exit_code", "started_at", "completed_at"] v
  let id ← (fld o "id").bind decStepId
  let state ← (fld o "state").bind decState
  let exitCode ← decOpt decInt (fld o "exit_code")
  let startedAt ← decOpt (decTime x) (fld o "started_at")
  let completedAt ← decOpt (decTime x) (fld o "completed_at")
  return { id, state, exitCode, startedAt, completedAt }

/-- crates/astro-run/src/types/results.rs:16-23 -/
def encJobResult (r : JobRunResult) : Json :=
  .obj [("id", encJobId r.id), ("state", encState r.state), ("started_at", encOpt (encTime x) r.startedAt),
    ("completed_at", encOpt (encTime x) r.completedAt), ("steps", encList (encStepResult x) r.steps)]
def decJobResult (v : Json) : Option JobRunResult := do
  let o ← fieldsOf ["id", "state", "started_at", "completed_at", "steps"] v
  let id ← (fld o "id").bind decJobId
  let state ← (fld o "state").bind decState
  let startedAt ← decOpt (decTime x) (fld o "started_at")
  let completedAt ← decOpt (decTime x) (fld o "completed_at")
  let steps ← (fld o "steps").bind (decList (decStepResult x))
  return { id, state, startedAt, completedAt, steps }

/-- crates/astro-run/src/types/results.rs:25-32 -/
def encWorkflowResult (r : WorkflowRunResult) : Json :=
  .obj [("id", encWorkflowId r.id), ("state", encState r.state), ("started_at", encOpt (encTime x) r.startedAt),
    ("completed_at", encOpt (encTime x) r.completedAt), ("jobs", encMap (encJobResult x) r.jobs)]
def decWorkflowResult (v : Json) : Option WorkflowRunResult := do
  let o ← fieldsOf ["id", "state", "started_at", "completed_at", "jobs"] v
  let id ← (fld o "id").bind decWorkflowId
  let state ← (fld o "state").bind decState
  let startedAt ← decOpt (decTime x) (fld o "started_at")
  let completedAt ← decOpt (decTime x) (fld o "completed_at")
  let jobs ← (fld o "jobs").bind (decMap (decJobResult x))
  return { id, state, startedAt, completedAt, jobs }

/-- crates/astro-run/src/types/mod.rs:61-67 -/
structure WorkflowLog where
  stepId : StepId
  logType : LogType
  message : String
  time : Time
  deriving DecidableEq

def encWorkflowLog (l : WorkflowLog) : Json :=
  .obj [("step_id", encStepId l.stepId), ("log_type", encLogType l.logType), ("message", .str l.message),
    ("time", encTime x l.time)]
def decWorkflowLog (v : Json) : Option WorkflowLog := do
  let o ← fieldsOf ["step_id", "log_type", "message", "time"] v
  let stepId ← (fld o "step_id").bind decStepId
  let logType ← (fld o "log_type").bind decLogType
  let message ← (fld o "message").bind decStr
  let time ← (fld o "time").bind (decTime x)
  return { stepId, logType, message, time }

/-- crates/astro-run/src/types/workflow_state_event.rs:4-18 -/
inductive StateEvent
  | workflow (id : WorkflowId) (s : WorkflowState)
  | job (id : JobId) (s : WorkflowState)
  | step (id : StepId) (s : WorkflowState)
  deriving DecidableEq

def encStateEvent : StateEvent → Json
  | .workflow i s => .obj [("WorkflowStateUpdated", .obj [("id", encWorkflowId i), ("state", encState s)])]
  | .job i s => .obj [("JobStateUpdated", .obj [("id", encJobId i), ("state", encState s)])]
  | .step i s => .obj [("StepStateUpdated", .obj [("id", encStepId i), ("state", encState s)])]
def decStateEvent : Json → Option StateEvent
  | .obj [("WorkflowStateUpdated", v)] => do
    let o ← fieldsOf ["id", "state"] v
    let i ← (fld o "id").bind decWorkflowId
    let s ← (fld o "state").bind decState
    return .workflow i s
  | .obj [("JobStateUpdated", v)] => do
    let o ← fieldsOf ["id", "state"] v
    let i ← (fld o "id").bind decJobId
    let s ← (fld o "state").bind decState
    return .job i s
  | .obj [("StepStateUpdated", v)] => do
    let o ← fieldsOf ["id", "state"] v
    let i ← (fld o "id").bind decStepId
    let s ← (fld o "state").bind decState
    return .step i s
  | _ => none

/-- crates/astro-run/src/plugins/mod.rs:12-20 -/
structure RunEvent (α Pl : Type) where
  source : α
  triggerEvent : Option TriggerEvent := none
  payload : Option Pl := none

def encRunEvent {α : Type} (enc : α → Json) (e : RunEvent α Pl) : Json :=
  .obj [("source", enc e.source), ("trigger_event", encOpt encTrigger e.triggerEvent),
    ("payload", encOpt x.encPayload e.payload)]
def decRunEvent {α : Type} (dec : Json → Option α) (v : Json) : Option (RunEvent α Pl) := do
  let o ← fieldsOf ["source", "trigger_event", "payload"] v
  let source ← (fld o "source").bind dec
  let triggerEvent ← decOpt decTrigger (fld o "trigger_event")
  let payload ← decOpt x.decPayload (fld o "payload")
  return { source, triggerEvent, payload }

/-- crates/protocol/src/lib.rs:44-48 -/
structure SignalEvent where
  stepId : StepId
  signal : Signal
  deriving DecidableEq

def encSignalEvent (e : SignalEvent) : Json :=
  .obj [("step_id", encStepId e.stepId), ("signal", encSignal e.signal)]
def decSignalEvent (v : Json) : Option SignalEvent := do
  let o ← fieldsOf ["step_id", "signal"] v
  let stepId ← (fld o "step_id").bind decStepId
  let signal ← (fld o "signal").bind decSignal
  return { stepId, signal }

/-- crates/protocol/src/lib.rs:9-20 -/
inductive ProtocolEvent (Pl : Type)
  | runStep (e : RunEvent Step Pl)
  | runJob (e : RunEvent Job Pl)
  | runWorkflow (e : RunEvent Workflow Pl)
  | stepCompleted (r : StepRunResult)
  | jobCompleted (r : JobRunResult)
  | workflowCompleted (r : WorkflowRunResult)
  | stepLog (l : WorkflowLog)
  | stateChange (e : StateEvent)
  | signal (e : SignalEvent)

def encEvent : ProtocolEvent Pl → Json
  | .runStep e => .obj [("RunStep", encRunEvent x encStep e)]
  | .runJob e => .obj [("RunJob", encRunEvent x encJob e)]
  | .runWorkflow e => .obj [("RunWorkflow", encRunEvent x encWorkflow e)]
  | .stepCompleted r => .obj [("StepCompleted", encStepResult x r)]
  | .jobCompleted r => .obj [("JobCompleted", encJobResult x r)]
  | .workflowCompleted r => .obj [("WorkflowCompleted", encWorkflowResult x r)]
  | .stepLog l => .obj [("StepLog", encWorkflowLog x l)]
  | .stateChange e => .obj [("StateChange", encStateEvent e)]
  | .signal e => .obj [("Signal", encSignalEvent e)]
def decEvent : Json → Option (ProtocolEvent Pl)
  | .obj [("RunStep", j)] => (decRunEvent x decStep j).map .runStep
  | .obj [("RunJob", j)] => (decRunEvent x decJob j).map .runJob
  | .obj [("RunWorkflow", j)] => (decRunEvent x decWorkflow j).map .runWorkflow
  | .obj [("StepCompleted", j)] => (decStepResult x j).map .stepCompleted
  | .obj [("JobCompleted", j)] => (decJobResult x j).map .jobCompleted
  | .obj [("WorkflowCompleted", j)] => (decWorkflowResult x j).map .workflowCompleted
  | .obj [("StepLog", j)] => (decWorkflowLog x j).map .stepLog
  | .obj [("StateChange", j)] => (decStateEvent j).map .stateChange
  | .obj [("Signal", j)] => (decSignalEvent j).map .signal
  | _ => none

end

/-- crates/protocol/src/lib.rs:22-32 -/
inductive RunResponse
  | log (stepId : StepId) (l : Log)
  | result (stepId : StepId) (r : RunResult)
  deriving DecidableEq

def encResponse : RunResponse → Json
  | .log i l => .obj [("Log", .obj [("step_id", encStepId i), ("log", encLog l)])]
  | .result i r => .obj [("Result", .obj [("step_id", encStepId i), ("result", encResult r)])]
def decResponse : Json → Option RunResponse
  | .obj [("Log", v)] => do
    let o ← fieldsOf ["step_id", "log"] v
    let i ← (fld o "step_id").bind decStepId
    let l ← (fld o "log").bind decLog
    return .log i l
  | .obj [("Result", v)] => do
    let o ← fieldsOf ["step_id", "result"] v
    let i ← (fld o "step_id").bind decStepId
    let r ← (fld o "result").bind decResult
    return .result i r
  | _ => none

/-- crates/astro-run/src/types/context.rs:17-25; `signal` is `#[serde(skip)]`. -/
structure Context where
  id : StepId
  signal : SigState := {}
  command : Command
  event : Option TriggerEvent := none
  payload : Option String := none

def encContext (c : Context) : Json :=
  .obj [("id", encStepId c.id), ("command", encCommand c.command), ("event", encOpt encTrigger c.event),
    ("payload", encOpt .str c.payload)]
def decContext (v : Json) : Option Context := do
  let o ← fieldsOf ["id", "command", "event", "payload"] v
  let id ← (fld o "id").bind decStepId
  let command ← (fld o "command").bind decCommand
  let event ← decOpt decTrigger (fld o "event")
  let payload ← decOpt decStr (fld o "payload")
  return { id, signal := {}, command, event, payload }

/-- crates/scheduler/src/lib.rs:7-16 -/
def encMeta (m : RunnerMeta) : Json :=
  .obj [("id", .str m.id), ("os", .str m.os), ("arch", .str m.arch), ("support_docker", .bool m.supportDocker),
    ("support_host", .bool m.supportHost), ("version", .str m.version), ("max_runs", .int m.maxRuns)]
def decMeta (v : Json) : Option RunnerMeta := do
  let o ← fieldsOf ["id", "os", "arch", "support_docker", "support_host", "version", "max_runs"] v
  let id ← (fld o "id").bind decStr
  let os ← (fld o "os").bind decStr
  let arch ← (fld o "arch").bind decStr
  let supportDocker ← (fld o "support_docker").bind decBool
  let supportHost ← (fld o "support_host").bind decBool
  let version ← (fld o "version").bind decStr
  let maxRuns ← (fld o "max_runs").bind decInt
  return { id, os, arch, supportDocker, supportHost, version, maxRuns }

end AstroRun.Wire
