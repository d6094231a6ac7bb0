import Verif.Spec.UserDecode

/-! # Specification vocabulary: what a message of the remote protocol means

The names are those of crates/protocol/src/lib.rs and of the types it refers to, under their serde attributes. -/

namespace AstroRun.Spec
open AstroRun AstroRun.Wire

def Whole (v : Json) (n : Int) : Prop := v = .int n
/-- A number that is not negative. -/
def Count (v : Json) (n : Nat) : Prop := v = .int (Int.ofNat n)
/-- The name of a variant without content. -/
def Named (v : Json) (s : String) : Prop := v = .str s ∨ v = .obj [(s, .null)]
/-- A variant with content: exactly one key, the name of the variant. -/
def Tagged {α : Type} (s : String) (R : Json → α → Prop) (v : Json) (a : α) : Prop := ∃ u, v = .obj [(s, u)] ∧ R u a

def MsgWorkflowId (v : Json) (i : WorkflowId) : Prop := v = .str i.id
def MsgJobId (v : Json) (i : JobId) : Prop := v = .arr [.str i.workflow, .str i.job]
def MsgStepId (v : Json) (i : StepId) : Prop := v = .arr [.str i.workflow, .str i.job, .int (Int.ofNat i.number)]

def stateName : WorkflowState → String
  | .pending => "pending"
  | .queued => "queued"
  | .inProgress => "in_progress"
  | .succeeded => "succeeded"
  | .failed => "failed"
  | .cancelled => "cancelled"
  | .skipped => "skipped"
def MsgState (v : Json) (s : WorkflowState) : Prop := Named v (stateName s)

def logTypeName : LogType → String
  | .error => "error"
  | .log => "log"
def MsgLogType (v : Json) (t : LogType) : Prop := Named v (logTypeName t)

def signalName : Signal → String
  | .cancel => "Cancel"
  | .timeout => "Timeout"
def MsgSignal (v : Json) (s : Signal) : Prop := Named v (signalName s)

def MsgLog (v : Json) (l : Log) : Prop :=
  ∃ o, Written ["log_type", "message"] v o ∧ Required o "log_type" MsgLogType l.logType ∧ Required o "message" Text l.message

def MsgExit (v : Json) (c : Int) : Prop := ∃ o, Written ["exit_code"] v o ∧ Required o "exit_code" Whole c
def MsgResult (v : Json) : RunResult → Prop
  | .succeeded => Named v "Succeeded"
  | .failed c => Tagged "Failed" MsgExit v c
  | .cancelled => Named v "Cancelled"

def MsgTrigger (v : Json) (t : TriggerEvent) : Prop :=
  ∃ o, Written ["event", "repo_owner", "repo_name", "pr_number", "sha", "branch", "ref_name"] v o ∧
    Required o "event" Text t.event ∧ Required o "repo_owner" Text t.repoOwner ∧ Required o "repo_name" Text t.repoName ∧
    Optional o "pr_number" Whole t.prNumber ∧ Required o "sha" Text t.sha ∧ Required o "branch" Text t.branch ∧
    Required o "ref_name" Text t.refName

def MsgContainer (v : Json) (c : ContainerOptions) : Prop := MeansContainer v (.options c)

/-- A time span in nanoseconds. -/
def MsgDuration (v : Json) (t : Nat) : Prop :=
  ∃ o s n, Written ["secs", "nanos"] v o ∧ Required o "secs" Count s ∧ Required o "nanos" Count n ∧ t = s * 1000000000 + n

def MsgCommand (v : Json) (c : Command) : Prop :=
  ∃ o, Written ["id", "name", "container", "run", "continue_on_error", "environments", "secrets", "timeout"] v o ∧
    Required o "id" MsgStepId c.id ∧ Optional o "name" Text c.name ∧ Optional o "container" MsgContainer c.container ∧
    Required o "run" Text c.run ∧ Required o "continue_on_error" Truth c.continueOnError ∧
    Required o "environments" (Mapping MeansEnv) c.environments ∧ Required o "secrets" Texts c.secrets ∧
    Required o "timeout" MsgDuration c.timeout

def MsgStep (v : Json) (s : Step) : Prop :=
  ∃ o, Written ["id", "name", "on", "container", "run", "continue_on_error", "environments", "secrets", "timeout"] v o ∧
    Required o "id" MsgStepId s.id ∧ Optional o "name" Text s.name ∧ Optional o "on" MeansCondition s.on ∧
    Optional o "container" MsgContainer s.container ∧ Required o "run" Text s.run ∧
    Required o "continue_on_error" Truth s.continueOnError ∧
    Required o "environments" (Mapping MeansEnv) s.environments ∧ Required o "secrets" Texts s.secrets ∧
    Required o "timeout" MsgDuration s.timeout

def MsgJob (v : Json) (b : Job) : Prop :=
  ∃ o, Written ["id", "name", "on", "steps", "depends_on", "working_directories"] v o ∧
    Required o "id" MsgJobId b.id ∧ Optional o "name" Text b.name ∧ Optional o "on" MeansCondition b.on ∧
    Required o "steps" (Sequence MsgStep) b.steps ∧ Required o "depends_on" Texts b.dependsOn ∧
    Required o "working_directories" Texts b.workingDirectories

def MsgWorkflow (v : Json) (w : Workflow) : Prop :=
  ∃ o, Written ["id", "name", "on", "jobs"] v o ∧
    Required o "id" MsgWorkflowId w.id ∧ Optional o "name" Text w.name ∧ Optional o "on" MeansCondition w.on ∧
    Required o "jobs" (Mapping MsgJob) w.jobs

section
variable {Pl : Type} (x : Ext Pl)

def MsgTime (v : Json) (t : Time) : Prop := ∃ s, v = .str s ∧ x.parseTime s = some t

def MsgStepResult (v : Json) (r : StepRunResult) : Prop :=
  ∃ o, Written ["id", "state", "exit_code", "started_at", "completed_at"] v o ∧
    Required o "id" MsgStepId r.id ∧ Required o "state" MsgState r.state ∧ Optional o "exit_code" Whole r.exitCode ∧
    Optional o "started_at" (MsgTime x) r.startedAt ∧ Optional o "completed_at" (MsgTime x) r.completedAt

def MsgJobResult (v : Json) (r : JobRunResult) : Prop :=
  ∃ o, Written ["id", "state", "started_at", "completed_at", "steps"] v o ∧
    Required o "id" MsgJobId r.id ∧ Required o "state" MsgState r.state ∧
    Optional o "started_at" (MsgTime x) r.startedAt ∧ Optional o "completed_at" (MsgTime x) r.completedAt ∧
    Required o "steps" (Sequence (MsgStepResult x)) r.steps

def MsgWorkflowResult (v : Json) (r : WorkflowRunResult) : Prop :=
  ∃ o, Written ["id", "state", "started_at", "completed_at", "jobs"] v o ∧
    Required o "id" MsgWorkflowId r.id ∧ Required o "state" MsgState r.state ∧
    Optional o "started_at" (MsgTime x) r.startedAt ∧ Optional o "completed_at" (MsgTime x) r.completedAt ∧
    Required o "jobs" (Mapping (MsgJobResult x)) r.jobs

def MsgWorkflowLog (v : Json) (l : WorkflowLog) : Prop :=
  ∃ o, Written ["step_id", "log_type", "message", "time"] v o ∧
    Required o "step_id" MsgStepId l.stepId ∧ Required o "log_type" MsgLogType l.logType ∧
    Required o "message" Text l.message ∧ Required o "time" (MsgTime x) l.time

/-- A new state of something with an id. -/
def MsgUpdate {ι : Type} (R : Json → ι → Prop) (v : Json) (p : ι × WorkflowState) : Prop :=
  ∃ o, Written ["id", "state"] v o ∧ Required o "id" R p.1 ∧ Required o "state" MsgState p.2
def MsgStateEvent (v : Json) : StateEvent → Prop
  | .workflow i s => Tagged "WorkflowStateUpdated" (MsgUpdate MsgWorkflowId) v (i, s)
  | .job i s => Tagged "JobStateUpdated" (MsgUpdate MsgJobId) v (i, s)
  | .step i s => Tagged "StepStateUpdated" (MsgUpdate MsgStepId) v (i, s)

def MsgRunEvent {α : Type} (R : Json → α → Prop) (v : Json) (e : RunEvent α Pl) : Prop :=
  ∃ o, Written ["source", "trigger_event", "payload"] v o ∧ Required o "source" R e.source ∧
    Optional o "trigger_event" MsgTrigger e.triggerEvent ∧ Optional o "payload" (fun v p => x.decPayload v = some p) e.payload

def MsgSignalEvent (v : Json) (e : SignalEvent) : Prop :=
  ∃ o, Written ["step_id", "signal"] v o ∧ Required o "step_id" MsgStepId e.stepId ∧ Required o "signal" MsgSignal e.signal

/-- An event of the coordinator. -/
def MsgEvent (v : Json) : ProtocolEvent Pl → Prop
  | .runStep e => Tagged "RunStep" (MsgRunEvent x MsgStep) v e
  | .runJob e => Tagged "RunJob" (MsgRunEvent x MsgJob) v e
  | .runWorkflow e => Tagged "RunWorkflow" (MsgRunEvent x MsgWorkflow) v e
  | .stepCompleted r => Tagged "StepCompleted" (MsgStepResult x) v r
  | .jobCompleted r => Tagged "JobCompleted" (MsgJobResult x) v r
  | .workflowCompleted r => Tagged "WorkflowCompleted" (MsgWorkflowResult x) v r
  | .stepLog l => Tagged "StepLog" (MsgWorkflowLog x) v l
  | .stateChange e => Tagged "StateChange" MsgStateEvent v e
  | .signal e => Tagged "Signal" MsgSignalEvent v e
end

/-- What a runner answers while it runs a step. -/
def MsgResponse (v : Json) : Wire.RunResponse → Prop
  | .log i l => ∃ u o, v = .obj [("Log", u)] ∧ Written ["step_id", "log"] u o ∧ Required o "step_id" MsgStepId i ∧
      Required o "log" MsgLog l
  | .result i r => ∃ u o, v = .obj [("Result", u)] ∧ Written ["step_id", "result"] u o ∧ Required o "step_id" MsgStepId i ∧
      Required o "result" MsgResult r

/-- The request to run a step; the signal of the context is not part of it. -/
def MsgContext (v : Json) (c : Wire.Context) : Prop :=
  c.signal = {} ∧ ∃ o, Written ["id", "command", "event", "payload"] v o ∧ Required o "id" MsgStepId c.id ∧
    Required o "command" MsgCommand c.command ∧ Optional o "event" MsgTrigger c.event ∧ Optional o "payload" Text c.payload

def MsgMeta (v : Json) (m : RunnerMeta) : Prop :=
  ∃ o, Written ["id", "os", "arch", "support_docker", "support_host", "version", "max_runs"] v o ∧
    Required o "id" Text m.id ∧ Required o "os" Text m.os ∧ Required o "arch" Text m.arch ∧
    Required o "support_docker" Truth m.supportDocker ∧ Required o "support_host" Truth m.supportHost ∧
    Required o "version" Text m.version ∧ Required o "max_runs" Whole m.maxRuns

end AstroRun.Spec
