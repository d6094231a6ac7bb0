import Verif.Lemmas.Lifecycle
import Verif.Spec.Timing

/-! # C84: the life cycle of states -/

namespace AstroRun
open Spec

/-- **C84** The states `is_queued` and `is_in_progress` accept. -/
theorem C84_is_waiting (s : WorkflowState) :
    (s.isQueued = true ↔ s = .queued) ∧ (s.isInProgress = true ↔ s = .inProgress) := by
  cases s <;> simp [WorkflowState.isQueued, WorkflowState.isInProgress]

/-- **C84** The states `is_terminal` accepts. -/
theorem C84_is_terminal (s : WorkflowState) : s.isTerminal = true ↔ s = .succeeded ∨ s = .failed ∨ s = .cancelled ∨ s = .skipped := by
  cases s <;> simp [WorkflowState.isTerminal]

/-- **C84** The notifications of every job run come in the order `Allowed` permits, whatever else the engine does. -/
theorem C84_job_notifications (acts : List SysAct) (M : Sys) (h : SysReach acts M) (r : Nat) (ρ : SysRun) (hr : M.runs[r]? = some ρ)
    (i : Nat) (t : SysTask) (ht : ρ.tasks[i]? = some t) : WellOrdered t.job.id (eventsOf i ρ.trace) := by
  have hL := runLife_reach h hr
  rw [hL.events i, ht]
  exact (hL.tasks t (List.mem_of_getElem? ht)).ordered

/-- **C84** A job run that has its answer has reported everything: the answer's state is final, so are those of its steps, and the
last notification of the run is the completion with exactly this answer, or the job was skipped and that is all it reported. -/
theorem C84_job_answers (acts : List SysAct) (M : Sys) (h : SysReach acts M) (r : Nat) (ρ : SysRun) (hr : M.runs[r]? = some ρ)
    (i : Nat) (t : SysTask) (ht : ρ.tasks[i]? = some t) (jr : JobRunResult) (ha : SysTask.answer t = some jr) :
    jr.id = t.job.id ∧ jr.state.isTerminal = true ∧ (∀ s ∈ jr.steps, s.state.isTerminal = true) ∧
    ((eventsOf i ρ.trace).getLast? = some (.jobCompleted jr) ∨
      jr.state = .skipped ∧ eventsOf i ρ.trace = [.jobState t.job.id .skipped]) := by
  have hL := runLife_reach h hr
  rw [hL.events i, ht]
  have := hL.tasks t (List.mem_of_getElem? ht)
  unfold SysTask.answer at ha
  split at ha
  · rename_i q hpc; cases ha; rw [hpc] at this; exact ⟨this.2.2.2.1, this.2.1, this.2.2.1, this.2.2.2.2⟩
  · rename_i q hpc; cases ha; rw [hpc] at this; exact ⟨this.2.2.2.1, this.2.1, this.2.2.1, this.2.2.2.2⟩
  · cases ha

/-- **C84** The notifications of a workflow's main task are always an initial part of "run, in progress, final state, completed",
or it was skipped. -/
theorem C84_workflow_notifications (acts : List SysAct) (M : Sys) (h : SysReach acts M) (r : Nat) (ρ : SysRun)
    (hr : M.runs[r]? = some ρ) :
    mainEvents ρ.trace = [.workflowState ρ.wf.id .skipped] ∨
    ∃ res : WorkflowRunResult, res.id = ρ.wf.id ∧ res.state.isTerminal = true ∧ res.state ≠ .skipped ∧
      mainEvents ρ.trace <+: [.runWorkflow ρ.wf.id, .workflowState ρ.wf.id .inProgress, .workflowState ρ.wf.id res.state, .workflowCompleted res] := by
  have := (runLife_reach h hr).main
  unfold MainLife at this
  have fin : ∀ s : WorkflowState, s = .succeeded ∨ s = .failed ∨ s = .cancelled → s.isTerminal = true ∧ s ≠ .skipped := by
    rintro s (rfl | rfl | rfl) <;> simp [WorkflowState.isTerminal]
  split at this
  · exact .inr ⟨{ id := ρ.wf.id, state := .succeeded, startedAt := none, completedAt := none, jobs := [] }, rfl, rfl, by simp, by simp [this]⟩
  · exact .inr ⟨{ id := ρ.wf.id, state := .succeeded, startedAt := none, completedAt := none, jobs := [] }, rfl, rfl, by simp, by simp [this.1]⟩
  · exact .inr ⟨{ id := ρ.wf.id, state := .succeeded, startedAt := none, completedAt := none, jobs := [] }, rfl, rfl, by simp, by simp [this.1]⟩
  · exact .inr ⟨{ id := ρ.wf.id, state := .succeeded, startedAt := none, completedAt := none, jobs := [] }, rfl, rfl, by simp, by simp [this.1]⟩
  · rename_i res _
    exact .inr ⟨res, this.2.2.1, (fin _ this.2.1).1, (fin _ this.2.1).2, by simp [this.1]⟩
  · rename_i res _
    rcases this.2.2 with ⟨_, hx, _⟩ | ⟨hs, hx⟩
    · exact .inl hx
    · exact .inr ⟨res, this.1, (fin _ hs).1, (fin _ hs).2, by simp [hx]⟩

/-- **C84** Every state in a returned result is final: the workflow's, its jobs' and their steps'. -/
theorem C84_returned_states (acts : List SysAct) (M : Sys) (h : SysReach acts M) (r : Nat) (ρ : SysRun) (hr : M.runs[r]? = some ρ)
    (res : WorkflowRunResult) (hp : ρ.pc = .returned res) :
    res.state.isTerminal = true ∧ ∀ k jr, (k, jr) ∈ res.jobs → jr.state.isTerminal = true ∧ ∀ s ∈ jr.steps, s.state.isTerminal = true := by
  have := (runLife_reach h hr).main
  unfold MainLife at this
  simp only [hp] at this
  refine ⟨?_, this.2.1⟩
  rcases this.2.2 with ⟨hx, _⟩ | ⟨hx | hx | hx, _⟩ <;> rw [hx] <;> rfl

/-- The hypotheses are met, by two runs that have returned with a job and a step each, and by a run on its way. -/
example : ∃ (M : Sys) (ρ : SysRun) (res : WorkflowRunResult) (t : SysTask) (jr : JobRunResult), SysReach TimingEx.chain M ∧
    M.runs[0]? = some ρ ∧ ρ.pc = .returned res ∧ res.jobs.length = 2 ∧ ρ.tasks[1]? = some t ∧ SysTask.answer t = some jr ∧
    jr.steps.length = 1 ∧ (eventsOf 1 ρ.trace).length = 9 ∧ (mainEvents ρ.trace).length = 4 :=
  ⟨SystemEx.after TimingEx.chain, _, _, _, _, rfl, rfl, rfl, rfl, rfl, rfl, rfl, rfl, rfl⟩

end AstroRun
