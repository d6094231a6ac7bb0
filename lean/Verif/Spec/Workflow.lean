import Verif.Model.Workflow
import Mathlib.Logic.Relation

/-! # Specification vocabulary: workflow runs -/

namespace AstroRun.Spec
open AstroRun

/-- `m` is a state that the schedule `acts` leads to when workflow `wf` is run. -/
def WfReach (wf : Workflow) (acts : List WfAct) (m : WfM) : Prop :=
  runs WfM.step (WfM.initial wf) acts = some m

/-- The job map is a map: one entry per key. -/
def UniqueJobs (wf : Workflow) : Prop := (wf.jobs.map Prod.fst).Nodup

/-- Job `a` directly depends on job `b`. -/
def DependsOn (wf : Workflow) (a b : Id) : Prop := ∃ j, (a, j) ∈ wf.jobs ∧ b ∈ j.dependsOn

/-- Every dependency names a job of the workflow. -/
def DepsDefined (wf : Workflow) : Prop := ∀ k j, (k, j) ∈ wf.jobs → ∀ d ∈ j.dependsOn, ∃ j', (d, j') ∈ wf.jobs

/-- No job depends, directly or not, on itself. -/
def Acyclic (wf : Workflow) : Prop := ∀ a, ¬ Relation.TransGen (DependsOn wf) a a

/-- The notifications issued by the `i`-th started job run. -/
def eventsOf (i : Nat) (tr : List (Option Nat × Event)) : List Event :=
  tr.filterMap fun p => if p.1 = some i then some p.2 else none

/-- The notifications issued by the workflow's main task. -/
def mainEvents (tr : List (Option Nat × Event)) : List Event :=
  tr.filterMap fun p => if p.1 = none then some p.2 else none

/-- The `i`-th started job run is a run of the job with key `k`. -/
def IsRunOf (m : WfM) (i : Nat) (k : Id) : Prop := ∃ t, m.tasks[i]? = some t ∧ t.key = k

/-- What was observed of a job run is a complete run of `job`, ending with result `r`. -/
def CompleteRun (job : Job) (evs : List Event) (r : JobRunResult) : Prop := ∃ env, jobRun env job = (evs, r)

/-- The last result that is Failed or Cancelled, if any. -/
def lastBad (rs : List JobRunResult) : Option JobRunResult :=
  (rs.filter fun r => r.state = .failed ∨ r.state = .cancelled).getLast?

/-- Different jobs have different ids, and the step ids of a job belong to it (as in every parsed workflow:
`C06_parsed_workflows`). -/
def OwnIds (wf : Workflow) : Prop :=
  (∀ k j k' j', (k, j) ∈ wf.jobs → (k', j') ∈ wf.jobs → j.id = j'.id → k = k') ∧
  ∀ k j, (k, j) ∈ wf.jobs → ∀ s ∈ j.steps, s.id.jobId = j.id

/-- Every job that has dependencies is an ancestor or a descendant of every other job. -/
def NoParallelDependents (wf : Workflow) : Prop :=
  ∀ k j, (k, j) ∈ wf.jobs → j.dependsOn ≠ [] → ∀ x j', (x, j') ∈ wf.jobs → x ≠ k →
    Relation.TransGen (DependsOn wf) k x ∨ Relation.TransGen (DependsOn wf) x k

/-- The before-step hooks leave the job part of step ids alone in every job run of the schedule. -/
def HooksKeepJob (wf : Workflow) (acts : List WfAct) : Prop :=
  ∀ i env, WfAct.begin i env ∈ acts → ∀ k j, (k, j) ∈ wf.jobs → ∀ n s, j.steps[n]? = some s →
    ((env.step n).before s).id.jobId = j.id

end AstroRun.Spec
