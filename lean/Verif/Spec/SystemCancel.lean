import Verif.Spec.Timing

/-! # Specification vocabulary: cancelling jobs of a busy engine -/

namespace AstroRun.Spec
open AstroRun

/-- The step a job run is executing: it has been handed to the runner and has no result yet. -/
def stepOf : SysPc → Option Step
  | .calling s _ _ | .handling s _ _ | .select s _ _ _ => some s
  | .emitting _ (.handling s _ _) => some s
  | _ => none

/-- The job ids `cancel_job` was called with, in order. -/
def cancelled (acts : List SysAct) : List JobId := acts.filterMap fun | .cancel j => some j | _ => none

/-- Some job run announced job `j`: `i` is its number in run `r`. -/
def Announced (M : Sys) (j : JobId) (r i : Nat) : Prop :=
  ∃ ρ, M.runs[r]? = some ρ ∧ Event.runJob j ∈ eventsOf i ρ.trace

/-- At most one job run announced job `j`. -/
def AnnouncedOnce (M : Sys) (j : JobId) : Prop :=
  ∀ r i r' i', Announced M j r i → Announced M j r' i' → r = r' ∧ i = i'

/-- In the course of `acts` the cancellation of job `j` was passed on to a step of `j`. -/
def PassedOn (acts : List SysAct) (j : JobId) : Prop :=
  ∃ pre post r i M0 t s, acts = pre ++ SysAct.task r i .jobSignal :: post ∧ SysReach pre M0 ∧ taskAt M0 r i = some t ∧
    stepOf t.pc = some s ∧ s.id.jobId = j

end AstroRun.Spec

namespace AstroRun.CancelEx
open AstroRun TimingEx

/-- The runner takes the step of task `i`, which is then waiting. -/
def taken (i : Nat) : List SysAct := [.task 0 i .accept, .task 0 i .emit, .task 0 i .emit, .task 0 i .enter]

/-- Two jobs in one run, both waiting for their runner. -/
def both : List SysAct :=
  [.start wf, .main 0 (.check true), .main 0 .spawn, .main 0 .spawn, .main 0 .spawn, .main 0 .spawn, .main 0 .spawn] ++
  first 0 "b" ++ taken 0 ++ first 1 "a" ++ taken 1

/-- `c` is started twice; both runs of it are waiting for their runner. -/
def again : List SysAct :=
  [.start wf, .main 0 (.check true), .main 0 .spawn, .main 0 .spawn, .main 0 .spawn, .main 0 .spawn, .main 0 .spawn] ++
  first 1 "a" ++ second 1 ++ first 0 "b" ++ second 0 ++ first 2 "c" ++ first 3 "c" ++ taken 2 ++ taken 3

end AstroRun.CancelEx
