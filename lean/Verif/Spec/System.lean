import Verif.Model.System
import Verif.Spec.Workflow

/-! # Specification vocabulary: schedules of the whole engine -/

namespace AstroRun.Spec
open AstroRun

/-- `M` is reached from a fresh engine by the schedule `acts`. -/
def SysReach (acts : List SysAct) (M : Sys) : Prop := runs Sys.step ({} : Sys) acts = some M

/-- The workflows started, in order: the `r`-th belongs to run `r`. -/
def started (acts : List SysAct) : List Workflow := acts.filterMap fun | .start wf => some wf | _ => none

/-- The runs of a schedule use different job ids: no two of them run a workflow with the same id, the jobs of a workflow
carry its id (as in every parsed workflow), and the before-step hooks do not move a step to another workflow. -/
structure Apart (acts : List SysAct) : Prop where
  distinct : ((started acts).map Workflow.id).Nodup
  own : ∀ wf ∈ started acts, ∀ k j, (k, j) ∈ wf.jobs → j.id.workflow = wf.id.id
  hooks : ∀ r i b s, SysAct.task r i (.nextStep b s) ∈ acts → ∀ wf, (started acts)[r]? = some wf →
    s.id.workflow = wf.id.id

/-- The before-step hooks leave the job part of step ids alone: whenever a job run goes to its next step, the step the
hooks make of it carries the id of that job. -/
def HooksKeepJobs (acts : List SysAct) : Prop :=
  ∀ pre r i b s post, acts = pre ++ SysAct.task r i (.nextStep b s) :: post → ∀ M, SysReach pre M →
    ∀ (ρ : SysRun) (t : SysTask), M.runs[r]? = some ρ → ρ.tasks[i]? = some t → s.id.jobId = t.job.id

/-- The action is one of run `r`'s main task, of its job tasks or of the runner working for them. -/
def ofRun (r : Nat) : SysAct → Prop
  | .main r' _ => r' = r
  | .task r' _ _ => r' = r
  | _ => False

/-- The workflow machine's state `m` and the engine's run `ρ` agree on everything an observer of one workflow sees. -/
structure SameRun (m : WfM) (ρ : SysRun) : Prop where
  wf : m.wf = ρ.wf
  pc : m.pc = ρ.pc
  trace : m.trace = ρ.trace
  received : m.received = ρ.received
  results : m.results = ρ.results
  chan : m.chan = ρ.chan
  waiting : m.waiting = ρ.waiting
  state : m.state = ρ.state
  startedAt : m.startedAt = ρ.startedAt
  tasks : m.tasks.map (fun t => (t.key, t.job)) = ρ.tasks.map (fun t => (t.key, t.job))

/-- The `i`-th job run of `ρ` is a run of the job with key `k`. -/
def RunsJob (ρ : SysRun) (i : Nat) (k : Id) : Prop := ∃ t, ρ.tasks[i]? = some t ∧ t.key = k

/-- The answer a job task has for its workflow, once it has one. -/
def SysTask.answer (t : SysTask) : Option JobRunResult :=
  match t.pc with
  | .finished r | .sent r => some r
  | _ => none

end AstroRun.Spec
