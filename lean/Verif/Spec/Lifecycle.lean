import Verif.Spec.System

/-! # Specification vocabulary: the life cycle of states and notifications -/

namespace AstroRun.Spec
open AstroRun

/-- The step states reported so far. -/
def stepReports (evs : List Event) : List (StepId × WorkflowState) :=
  evs.filterMap fun | .stepState id s => some (id, s) | _ => none

/-- The job states reported so far. -/
def jobReports (evs : List Event) : List (JobId × WorkflowState) :=
  evs.filterMap fun | .jobState id s => some (id, s) | _ => none

/-- The latest step report, if any, is final: no step is under way. -/
def NoStepOpen (evs : List Event) : Prop := ∀ p, (stepReports evs).getLast? = some p → p.2.isTerminal = true

/-- The notification `e` of a run of job `j` may follow the notifications `pre` of that run. -/
def Allowed (j : JobId) (pre : List Event) : Event → Prop
  -- the job is announced first and once
  | .runJob id => id = j ∧ pre = []
  -- it is skipped, or in progress and then final
  | .jobState id s => id = j ∧ (pre = [] ∧ s = .skipped ∨ pre = [.runJob j] ∧ s = .inProgress ∨
      jobReports pre = [(j, .inProgress)] ∧ NoStepOpen pre ∧ s.isTerminal = true ∧ s ≠ .skipped)
  -- completion directly follows the final report and agrees with it
  | .jobCompleted r => r.id = j ∧ pre.getLast? = some (.jobState j r.state) ∧ r.state.isTerminal = true ∧ r.state ≠ .skipped ∧
      ∀ s ∈ r.steps, s.state.isTerminal = true
  -- steps run while the job is in progress, one after the other
  | .runStep _ => jobReports pre = [(j, .inProgress)] ∧ NoStepOpen pre
  | .stepState id s => jobReports pre = [(j, .inProgress)] ∧
      (s = .skipped ∧ NoStepOpen pre ∨
       s = .queued ∧ NoStepOpen pre ∧ (∃ st, pre.getLast? = some (.runStep st) ∧ st.id = id) ∨
       s = .inProgress ∧ (stepReports pre).getLast? = some (id, .queued) ∨
       s = .failed ∧ (stepReports pre).getLast? = some (id, .queued) ∨
       s.isTerminal = true ∧ s ≠ .skipped ∧ (stepReports pre).getLast? = some (id, .inProgress))
  | .runnerRun c => jobReports pre = [(j, .inProgress)] ∧ pre.getLast? = some (.stepState c.id .queued)
  | .log id _ => jobReports pre = [(j, .inProgress)] ∧ (stepReports pre).getLast? = some (id, .inProgress)
  | .stepCompleted r => jobReports pre = [(j, .inProgress)] ∧ pre.getLast? = some (.stepState r.id r.state) ∧
      r.state.isTerminal = true ∧ r.state ≠ .skipped
  -- a job run says nothing about the workflow
  | .runWorkflow _ | .workflowState _ _ | .workflowCompleted _ => False

/-- Every notification is allowed where it stands. -/
def WellOrdered (j : JobId) (evs : List Event) : Prop := ∀ pre e post, evs = pre ++ e :: post → Allowed j pre e

end AstroRun.Spec
