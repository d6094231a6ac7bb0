import Verif.Spec.Lifecycle
import Verif.Lemmas.TimingExact

/-! # The life cycle of states: invariants of the engine -/

namespace AstroRun
open Spec

theorem wellOrdered_nil (j : JobId) : WellOrdered j [] := by
  intro pre e post h
  simp at h

theorem Spec.WellOrdered.snoc {j : JobId} {evs : List Event} {e : Event} (h : WellOrdered j evs) (he : Allowed j evs e) :
    WellOrdered j (evs ++ [e]) := by
  intro pre x post hx
  rcases List.eq_nil_or_concat post with rfl | ⟨post', y, rfl⟩
  · obtain ⟨rfl, h2⟩ := List.append_inj' hx rfl
    cases h2
    exact he
  · have : evs ++ [e] = (pre ++ x :: post') ++ [y] := by simpa using hx
    obtain ⟨rfl, _⟩ := List.append_inj' this rfl
    exact h pre x post' rfl

@[simp] theorem stepReports_append (a b : List Event) : stepReports (a ++ b) = stepReports a ++ stepReports b := by
  simp [stepReports]

@[simp] theorem jobReports_append (a b : List Event) : jobReports (a ++ b) = jobReports a ++ jobReports b := by
  simp [jobReports]

@[simp] theorem stepReports_nil : stepReports [] = [] := rfl
@[simp] theorem jobReports_nil : jobReports [] = [] := rfl
@[simp] theorem stepReports_runJob (x : JobId) (es : List Event) : stepReports (.runJob x :: es) = stepReports es := rfl
@[simp] theorem jobReports_runJob (x : JobId) (es : List Event) : jobReports (.runJob x :: es) = jobReports es := rfl
@[simp] theorem stepReports_jobCompleted (x : JobRunResult) (es : List Event) : stepReports (.jobCompleted x :: es) = stepReports es := rfl
@[simp] theorem jobReports_jobCompleted (x : JobRunResult) (es : List Event) : jobReports (.jobCompleted x :: es) = jobReports es := rfl
@[simp] theorem stepReports_runStep (x : Step) (es : List Event) : stepReports (.runStep x :: es) = stepReports es := rfl
@[simp] theorem jobReports_runStep (x : Step) (es : List Event) : jobReports (.runStep x :: es) = jobReports es := rfl
@[simp] theorem stepReports_runnerRun (x : Command) (es : List Event) : stepReports (.runnerRun x :: es) = stepReports es := rfl
@[simp] theorem jobReports_runnerRun (x : Command) (es : List Event) : jobReports (.runnerRun x :: es) = jobReports es := rfl
@[simp] theorem stepReports_stepCompleted (x : StepRunResult) (es : List Event) : stepReports (.stepCompleted x :: es) = stepReports es := rfl
@[simp] theorem jobReports_stepCompleted (x : StepRunResult) (es : List Event) : jobReports (.stepCompleted x :: es) = jobReports es := rfl
@[simp] theorem stepReports_log (id : StepId) (l : Log) (es : List Event) : stepReports (.log id l :: es) = stepReports es := rfl
@[simp] theorem jobReports_log (id : StepId) (l : Log) (es : List Event) : jobReports (.log id l :: es) = jobReports es := rfl
@[simp] theorem stepReports_jobState (id : JobId) (s : WorkflowState) (es : List Event) : stepReports (.jobState id s :: es) = stepReports es := rfl
@[simp] theorem jobReports_jobState (id : JobId) (s : WorkflowState) (es : List Event) : jobReports (.jobState id s :: es) = (id, s) :: jobReports es := rfl
@[simp] theorem stepReports_stepState (id : StepId) (s : WorkflowState) (es : List Event) :
    stepReports (.stepState id s :: es) = (id, s) :: stepReports es := rfl
@[simp] theorem jobReports_stepState (id : StepId) (s : WorkflowState) (es : List Event) : jobReports (.stepState id s :: es) = jobReports es := rfl

/-- What is known about a task at `pc`, `evs` being the notifications issued so far and those it must issue before it gets there. -/
def LifeAt (t : SysTask) (evs : List Event) : SysPc → Prop
  | .emitting es k => LifeAt t (evs ++ es) k
  | .init => evs = []
  | .next => WellOrdered t.job.id evs ∧ jobReports evs = [(t.job.id, .inProgress)] ∧ NoStepOpen evs ∧
      (t.state = .inProgress ∨ t.state = .failed ∨ t.state = .cancelled) ∧ ∀ r ∈ t.results, r.state.isTerminal = true
  | .queued s _ => WellOrdered t.job.id evs ∧ jobReports evs = [(t.job.id, .inProgress)] ∧
      (stepReports evs).getLast? = some (s.id, .queued) ∧ evs.getLast? = some (.stepState s.id .queued) ∧
      (t.state = .inProgress ∨ t.state = .failed ∨ t.state = .cancelled) ∧ ∀ r ∈ t.results, r.state.isTerminal = true
  | .calling s _ _ => WellOrdered t.job.id evs ∧ jobReports evs = [(t.job.id, .inProgress)] ∧
      (stepReports evs).getLast? = some (s.id, .queued) ∧
      (t.state = .inProgress ∨ t.state = .failed ∨ t.state = .cancelled) ∧ ∀ r ∈ t.results, r.state.isTerminal = true
  | .handling s _ _ | .select s _ _ _ => WellOrdered t.job.id evs ∧ jobReports evs = [(t.job.id, .inProgress)] ∧
      (stepReports evs).getLast? = some (s.id, .inProgress) ∧
      (t.state = .inProgress ∨ t.state = .failed ∨ t.state = .cancelled) ∧ ∀ r ∈ t.results, r.state.isTerminal = true
  | .finished r | .sent r => WellOrdered t.job.id evs ∧ r.state.isTerminal = true ∧ (∀ s ∈ r.steps, s.state.isTerminal = true) ∧
      r.id = t.job.id ∧ (evs.getLast? = some (.jobCompleted r) ∨ r.state = .skipped ∧ evs = [.jobState t.job.id .skipped])
  | .panicked _ => WellOrdered t.job.id evs

theorem LifeAt.congr {t t' : SysTask} {evs : List Event} {pc : SysPc} (h : LifeAt t evs pc) (h1 : t'.job = t.job)
    (h2 : t'.results = t.results) (h3 : t'.state = t.state) : LifeAt t' evs pc := by
  induction pc generalizing evs with
  | emitting es k ih => exact ih h
  | _ => simpa [LifeAt, h1, h2, h3] using h

theorem nextJobState_cases {st : WorkflowState} (h : st = .inProgress ∨ st = .failed ∨ st = .cancelled) (r : StepRunResult) :
    nextJobState st r = .inProgress ∨ nextJobState st r = .failed ∨ nextJobState st r = .cancelled := by
  unfold nextJobState
  split <;> simp_all

/-- The end of a step. -/
theorem LifeAt.stepDone {t : SysTask} {evs : List Event} {id : StepId} {s : WorkflowState} {r : StepRunResult}
    (h1 : WellOrdered t.job.id evs) (h2 : jobReports evs = [(t.job.id, .inProgress)])
    (h3 : (stepReports evs).getLast? = some (id, s)) (hs : s = .inProgress ∨ s = .queued ∧ r.state = .failed) (hid : r.id = id)
    (h4 : t.state = .inProgress ∨ t.state = .failed ∨ t.state = .cancelled) (h5 : ∀ r ∈ t.results, r.state.isTerminal = true)
    (h6 : r.state.isTerminal = true) (h7 : r.state ≠ .skipped) :
    LifeAt (t.stepDone r) evs (t.stepDone r).pc := by
  have e1 : WellOrdered t.job.id (evs ++ [.stepState r.id r.state]) := by
    refine h1.snoc ⟨h2, ?_⟩
    subst hid
    rcases hs with rfl | ⟨rfl, hf⟩
    · exact .inr (.inr (.inr (.inr ⟨h6, h7, h3⟩)))
    · exact .inr (.inr (.inr (.inl ⟨hf, h3⟩)))
  have e2 := e1.snoc (e := .stepCompleted r) ⟨by simp [h2, SysTask.emitThen, SysTask.stepDone], by simp, h6, h7⟩
  show WellOrdered _ _ ∧ _
  refine ⟨by simpa [SysTask.emitThen, SysTask.stepDone] using e2, by simp [h2, SysTask.emitThen, SysTask.stepDone], ?_, nextJobState_cases h4 r, ?_⟩
  · intro p hp
    simp [SysTask.emitThen, SysTask.stepDone] at hp
    subst hp
    exact h6
  · intro x hx
    rcases List.mem_append.1 hx with hx | hx
    · exact h5 x hx
    · obtain rfl := List.mem_singleton.1 hx
      exact h6

theorem stepResult_state (id : StepId) (r : RunResult) (a b : Time) :
    (stepResult id r a b).id = id ∧ (stepResult id r a b).state.isTerminal = true := by
  cases r <;> exact ⟨rfl, rfl⟩

theorem LifeAt.step {now : Time} {t t' : SysTask} {a : TaskAct} (h : LifeAt t t.evs t.pc) (hs : t.step now a = some t') :
    LifeAt t' t'.evs t'.pc := by
  cases a <;> simp only [SysTask.step] at hs
  case check b =>
    split at hs
    · rename_i hpc
      rw [hpc] at h
      replace h : t.evs = [] := h
      split at hs <;> cases hs
      · simp only [SysTask.emitThen, LifeAt, h, List.nil_append]
        exact ⟨(wellOrdered_nil _).snoc ⟨rfl, .inl ⟨rfl, rfl⟩⟩, rfl, by simp [skippedJobResult], rfl, .inr ⟨rfl, trivial⟩⟩
      · simp only [SysTask.emitThen, LifeAt, h, List.nil_append]
        refine ⟨?_, rfl, by simp [NoStepOpen], .inl trivial, by simp⟩
        exact ((wellOrdered_nil _).snoc (e := .runJob t.job.id) ⟨rfl, rfl⟩).snoc (e := .jobState t.job.id .inProgress) ⟨rfl, .inr (.inl ⟨rfl, rfl⟩)⟩
    · simp at hs
  case nextStep b s =>
    split at hs
    · rename_i st rest hpc hrest
      rw [hpc] at h
      obtain ⟨h1, h2, h3, h4, h5⟩ := h
      split at hs <;> cases hs
      · refine ⟨h1.snoc ⟨h2, .inl ⟨rfl, h3⟩⟩, by simp [h2, SysTask.emitThen, SysTask.stepDone], ?_, h4, ?_⟩
        · intro p hp
          simp [SysTask.emitThen, SysTask.stepDone] at hp
          subst hp
          rfl
        · intro x hx
          rcases List.mem_append.1 hx with hx | hx
          · exact h5 x hx
          · obtain rfl := List.mem_singleton.1 hx
            rfl
      · have e1 := h1.snoc (e := .runStep s) ⟨h2, h3⟩
        have hn : NoStepOpen (t.evs ++ [.runStep s]) := by
          intro p hp
          exact h3 p (by simpa using hp)
        have e2 := e1.snoc (e := .stepState s.id .queued) ⟨by simp [h2, SysTask.emitThen, SysTask.stepDone], .inr (.inl ⟨rfl, hn, s, by simp, rfl⟩)⟩
        exact ⟨by simpa [SysTask.emitThen, SysTask.stepDone] using e2, by simp [SysTask.emitThen, h2], by simp [SysTask.emitThen],
          by simp [SysTask.emitThen], h4, h5⟩
    · simp at hs
  case finishJob =>
    split at hs
    · rename_i hpc hrest
      rw [hpc] at h
      obtain ⟨h1, h2, h3, h4, h5⟩ := h
      cases hs
      have ht : (t.finalResult now).state.isTerminal = true ∧ (t.finalResult now).state ≠ .skipped := by
        simp only [SysTask.finalResult]
        rcases h4 with h | h | h <;> simp [h, WorkflowState.isInProgress, WorkflowState.isTerminal]
      have e1 := h1.snoc (e := .jobState t.job.id (t.finalResult now).state) ⟨rfl, .inr (.inr ⟨h2, h3, ht.1, ht.2⟩)⟩
      have e2 := e1.snoc (e := .jobCompleted (t.finalResult now)) ⟨rfl, by simp, ht.1, ht.2, h5⟩
      exact ⟨by simpa [SysTask.emitThen, SysTask.stepDone] using e2, ht.1, h5, rfl, .inl (by simp [SysTask.emitThen])⟩
    · simp at hs
  case refuse e =>
    split at hs
    · rename_i s t0 ref hpc
      rw [hpc] at h
      obtain ⟨h1, h2, h3, h4, h5⟩ := h
      cases hs
      exact LifeAt.stepDone h1 h2 h3 (.inr ⟨rfl, rfl⟩) rfl h4 h5 rfl (by simp [refusedResult])
    · simp at hs
  case accept =>
    split at hs
    · rename_i s t0 ref hpc
      rw [hpc] at h
      obtain ⟨h1, h2, h3, h4, h5⟩ := h
      cases hs
      exact ⟨h1.snoc ⟨h2, .inr (.inr (.inl ⟨rfl, h3⟩))⟩, by simp [h2, SysTask.emitThen, SysTask.stepDone], by simp [SysTask.emitThen], h4, h5⟩
    · simp at hs
  case enter =>
    split at hs
    · rename_i s t0 ref hpc
      rw [hpc] at h
      cases hs
      exact h
    · simp at hs
  case timer =>
    split at hs
    · rename_i s t0 d ref hpc
      rw [hpc] at h
      split at hs <;> cases hs
      exact h
    · simp at hs
  case recv =>
    split at hs
    · rename_i s t0 d ref hpc
      rw [hpc] at h
      obtain ⟨h1, h2, h3, h4, h5⟩ := h
      split at hs
      · cases hs
        exact ⟨h1.snoc ⟨h2, h3⟩, by simp [h2, SysTask.emitThen, SysTask.stepDone], by simpa [SysTask.emitThen] using h3, h4, h5⟩
      · split at hs
        · cases hs
          exact LifeAt.stepDone h1 h2 h3 (.inl rfl) (stepResult_state _ _ _ _).1 h4 h5 (stepResult_state _ _ _ _).2 (stepResult_stamps _ _ _ _).1
        · simp at hs
      · simp at hs
    · simp at hs
  case push l => split at hs <;> cases hs; exact h.congr rfl rfl rfl
  case endStream r => split at hs <;> cases hs; exact h.congr rfl rfl rfl
  all_goals cases hs

theorem LifeAt.move {g g' : SigMgr} {ρ ρ' : SysRun} {now : Time} {i : Nat} {t : SysTask} {a : TaskAct}
    (ht : LifeAt t t.evs t.pc) (h : Sys.taskStep g ρ now i t a = some (g', ρ')) :
    ∃ t', ρ'.tasks = ρ.tasks.set i t' ∧ LifeAt t' t'.evs t'.pc := by
  obtain ⟨t', h1, h2, h3, _, _, _, _, _, _, hc⟩ := taskStep_frame h
  refine ⟨t', h1, ?_⟩
  rcases hc with ⟨e, es, k, hpc, rfl, _⟩ | ⟨k, hpc, rfl, _⟩ | ⟨s, t0, ref, hpc, rfl, _⟩ | ⟨s, t0, hpc, rfl, _⟩ |
    ⟨s, t0, d, ref, sg, hpc, rfl, _⟩ | ⟨r, hpc, rfl, _⟩ | ⟨hs, _⟩
  · rw [hpc] at ht
    refine LifeAt.congr (t := t) ?_ rfl rfl rfl
    simpa [LifeAt] using ht
  · rw [hpc] at ht
    refine LifeAt.congr (t := t) ?_ rfl rfl rfl
    simpa [LifeAt] using ht
  · rw [hpc] at ht
    obtain ⟨h1, h2, h3, h3', h4, h5⟩ := ht
    exact ⟨h1.snoc ⟨h2, by simpa [Step.toCommand] using h3'⟩, by simp [h2, SysTask.emitThen, SysTask.stepDone], by simpa [SysTask.emitThen] using h3, h4, h5⟩
  · rw [hpc] at ht
    exact ht.1
  · rw [hpc] at ht; exact ht
  · rw [hpc] at ht; exact ht
  · exact ht.step hs

theorem LifeAt.ordered {t : SysTask} {pc : SysPc} {evs : List Event} (h : LifeAt t evs pc) : WellOrdered t.job.id evs := by
  have cut : ∀ (a b : List Event), WellOrdered t.job.id (a ++ b) → WellOrdered t.job.id a := by
    intro a b hab pre e post hx
    exact hab pre e (post ++ b) (by simp [hx])
  have gen : ∀ (pc : SysPc) (more : List Event), LifeAt t (evs ++ more) pc → WellOrdered t.job.id evs := by
    intro pc
    induction pc with
    | emitting es k ih => intro more hx; exact ih (more ++ es) (by simpa [LifeAt] using hx)
    | init =>
      intro more hx
      have : evs = [] := by
        have : evs ++ more = [] := hx
        simp_all
      rw [this]
      exact wellOrdered_nil _
    | panicked s => intro more hx; exact cut _ more hx
    | _ => intro more hx; exact cut _ more hx.1
  exact gen pc [] (by simpa using h)

/-- The job is announced first. -/
theorem LifeAt.runJob {t : SysTask} {evs es : List Event} {k : SysPc} {id : JobId}
    (h : LifeAt t evs (.emitting (.runJob id :: es) k)) : id = t.job.id ∧ evs = [] :=
  LifeAt.ordered (show LifeAt t (evs ++ .runJob id :: es) k from h) evs (.runJob id) es rfl

/-! ## Runs -/

/-- What holds of new runs and survives every move of theirs holds of all runs. -/
theorem run_always {P : SysRun → Prop} (h0 : ∀ wf, P { wf := wf })
    (hm : ∀ now ρ a ρ', P ρ → SysRun.main now ρ a = some ρ' → P ρ')
    (ht : ∀ g g' now ρ ρ' i t a, P ρ → ρ.tasks[i]? = some t → Sys.taskStep g ρ now i t a = some (g', ρ') → P ρ')
    {acts : List SysAct} {M : Sys} (h : SysReach acts M) : ∀ (r : Nat) (ρ : SysRun), M.runs[r]? = some ρ → P ρ := by
  refine runs_induct (P := fun _ M => ∀ (r : Nat) (ρ : SysRun), M.runs[r]? = some ρ → P ρ) ?_ ?_ h
  · intro r ρ hr
    simp at hr
  · intro _ M a M' _ ih hs r ρ hr
    rcases sys_step_cases hs with ⟨wf, rfl, rfl⟩ | ⟨n, b, ρ₁, ρ₂, rfl, hρ, hmm, rfl⟩ |
      ⟨n, i, b, ρ₁, t, g', ρ₂, rfl, hρ, htt, hmm, rfl⟩ | ⟨n, rfl, rfl⟩ | ⟨j, x, rfl, rfl⟩
    · simp only [List.getElem?_append] at hr
      split at hr
      · exact ih r ρ hr
      · obtain rfl := List.mem_singleton.1 (List.mem_of_getElem? hr)
        exact h0 wf
    · simp only [List.getElem?_set] at hr
      split at hr
      · split at hr
        · cases hr
          exact hm _ _ _ _ (ih n ρ₁ hρ) hmm
        · cases hr
      · exact ih r ρ hr
    · simp only [List.getElem?_set] at hr
      split at hr
      · split at hr
        · cases hr
          exact ht _ _ _ _ _ _ _ _ (ih n ρ₁ hρ) htt hmm
        · cases hr
      · exact ih r ρ hr
    · exact ih r ρ hr
    · exact ih r ρ hr

theorem SysTask.step_evs {now : Time} {t t' : SysTask} {a : TaskAct} (h : t.step now a = some t') : t'.evs = t.evs :=
  (SysTask.step_job h).2.2

/-- What a move of a job task adds to the notifications. -/
theorem taskStep_trace {g g' : SigMgr} {ρ ρ' : SysRun} {now : Time} {i : Nat} {t : SysTask} {a : TaskAct}
    (h : Sys.taskStep g ρ now i t a = some (g', ρ')) :
    ∃ t', ρ'.tasks = ρ.tasks.set i t' ∧ (ρ'.trace = ρ.trace ∧ t'.evs = t.evs ∨
      ∃ e, ρ'.trace = ρ.trace ++ [(some i, e)] ∧ t'.evs = t.evs ++ [e]) := by
  unfold Sys.taskStep at h
  split at h
  · split at h <;> cases h
    · exact ⟨_, rfl, .inl ⟨rfl, rfl⟩⟩
    · exact ⟨_, rfl, .inr ⟨_, rfl, rfl⟩⟩
  · split at h
    · split at h <;> cases h
      · exact ⟨_, rfl, .inr ⟨_, rfl, rfl⟩⟩
      · exact ⟨_, rfl, .inl ⟨rfl, rfl⟩⟩
    · cases h
  · split at h
    · split at h
      · split at h <;> cases h
        exact ⟨_, rfl, .inl ⟨rfl, rfl⟩⟩
      · cases h
    · cases h
  · split at h
    · split at h
      · cases h; exact ⟨_, rfl, .inl ⟨rfl, rfl⟩⟩
      · split at h <;> cases h
        exact ⟨_, rfl, .inl ⟨rfl, rfl⟩⟩
    · cases h
  · cases hs : t.step now a with
    | none => simp [hs] at h
    | some t' =>
      simp only [hs, Option.map_some, Option.some.injEq, Prod.mk.injEq] at h
      obtain ⟨rfl, rfl⟩ := h
      exact ⟨t', rfl, .inl ⟨rfl, SysTask.step_evs hs⟩⟩

/-- A result and its steps are final. -/
def FinalResult (r : JobRunResult) : Prop := r.state.isTerminal = true ∧ ∀ s ∈ r.steps, s.state.isTerminal = true

/-- What the main task has reported, by where it is. -/
def MainLife (ρ : SysRun) : Prop :=
  match ρ.pc with
  | .init => mainEvents ρ.trace = []
  | .setup _ | .loop => mainEvents ρ.trace = [.runWorkflow ρ.wf.id, .workflowState ρ.wf.id .inProgress] ∧
      (ρ.state = .inProgress ∨ ρ.state = .failed ∨ ρ.state = .cancelled)
  | .finishing _ => mainEvents ρ.trace = [.runWorkflow ρ.wf.id, .workflowState ρ.wf.id .inProgress] ∧
      (ρ.state = .succeeded ∨ ρ.state = .failed ∨ ρ.state = .cancelled)
  | .completing r => mainEvents ρ.trace = [.runWorkflow ρ.wf.id, .workflowState ρ.wf.id .inProgress, .workflowState ρ.wf.id r.state] ∧
      (r.state = .succeeded ∨ r.state = .failed ∨ r.state = .cancelled) ∧ r.id = ρ.wf.id ∧ ∀ k jr, (k, jr) ∈ r.jobs → FinalResult jr
  | .returned r => r.id = ρ.wf.id ∧ (∀ k jr, (k, jr) ∈ r.jobs → FinalResult jr) ∧
      (r.state = .skipped ∧ mainEvents ρ.trace = [.workflowState ρ.wf.id .skipped] ∧ ρ.tasks = [] ∨
      (r.state = .succeeded ∨ r.state = .failed ∨ r.state = .cancelled) ∧
        mainEvents ρ.trace = [.runWorkflow ρ.wf.id, .workflowState ρ.wf.id .inProgress, .workflowState ρ.wf.id r.state, .workflowCompleted r])

/-- What is known about the notifications of a run. -/
structure RunLife (ρ : SysRun) : Prop where
  events : ∀ i : Nat, eventsOf i ρ.trace = (ρ.tasks[i]?.map SysTask.evs).getD []
  tasks : ∀ t ∈ ρ.tasks, LifeAt t t.evs t.pc
  fresh : ρ.pc = .init → ρ.tasks = []
  msgs : ∀ msg ∈ ρ.chan ++ ρ.received, FinalResult msg.result
  results : ∀ k jr, (k, jr) ∈ ρ.results → FinalResult jr
  main : MainLife ρ

theorem nextWfState_cases {st : WorkflowState} (h : st = .inProgress ∨ st = .failed ∨ st = .cancelled) (r : JobRunResult) :
    nextWfState st r = .inProgress ∨ nextWfState st r = .failed ∨ nextWfState st r = .cancelled := by
  unfold nextWfState
  split
  · simp
  · split
    · simp
    · exact h

theorem RunLife.init (wf : Workflow) : RunLife { wf := wf } :=
  ⟨by simp, by simp, by simp, by simp, by simp, rfl⟩

theorem RunLife.main_move {now : Time} {ρ ρ' : SysRun} {a : MainAct} (h : RunLife ρ) (hm : ρ.main now a = some ρ') : RunLife ρ' := by
  obtain ⟨es, hes⟩ := main_fresh hm
  -- the tasks
  have htasks : ∀ t ∈ ρ'.tasks, LifeAt t t.evs t.pc := by
    intro t ht
    rw [hes] at ht
    rcases List.mem_append.1 ht with ht | ht
    · exact h.tasks t ht
    · obtain ⟨e, _, rfl⟩ := List.mem_map.1 ht
      exact rfl
  have hev : (∃ es, ρ'.trace = ρ.trace ++ es ∧ ∀ p ∈ es, p.1 = none) →
      ∀ i : Nat, eventsOf i ρ'.trace = (ρ'.tasks[i]?.map SysTask.evs).getD [] := by
    rintro ⟨l, hl, hn⟩ i
    have h1 : eventsOf i l = [] := eventsOf_eq_nil fun p hp => by rw [hn p hp]; simp
    rw [hl, eventsOf_append, h1, List.append_nil, h.events, hes, List.getElem?_append]
    split
    · rfl
    · rw [List.getElem?_eq_none (by omega)]
      cases hx : (es.map fun e : Id × Job => ({ key := e.1, job := e.2 } : SysTask))[i - ρ.tasks.length]? with
      | none => rfl
      | some t =>
        obtain ⟨e, _, rfl⟩ := List.mem_map.1 (List.mem_of_getElem? hx)
        rfl
  have hmain := h.main
  unfold MainLife at hmain
  cases a <;> simp only [SysRun.main] at hm
  case check b =>
    split at hm
    · rename_i hpc
      simp only [hpc] at hmain
      split at hm <;> cases hm
      · exact ⟨hev ⟨_, rfl, by simp⟩, htasks, by simp, h.msgs, h.results,
          rfl, by simp [skippedWfResult], .inl ⟨rfl, by simp [hmain], h.fresh hpc⟩⟩
      · exact ⟨hev ⟨_, rfl, by simp⟩, htasks, by simp, h.msgs, h.results, by rw [mainEvents_append, hmain]; rfl, .inl rfl⟩
    · cases hm
  case spawn =>
    split at hm
    · rename_i hpc
      simp only [hpc] at hmain
      cases hm
      exact ⟨hev ⟨[], by simp, by simp⟩, htasks, by simp, h.msgs, h.results, hmain⟩
    · rename_i e rest hpc
      simp only [hpc] at hmain
      cases hm
      refine ⟨hev ⟨[], ?_, by simp⟩, htasks, by simp, ?_, ?_, ?_⟩
      · simp only [SysRun.setupJob]; split <;> simp [SysRun.runJob]
      · simp only [SysRun.setupJob]; split <;> exact h.msgs
      · simp only [SysRun.setupJob]; split <;> exact h.results
      · simp only [SysRun.setupJob]
        split
        · exact hmain
        · refine ⟨hmain.1, ?_⟩
          dsimp only
          split
          · exact hmain.2
          · exact .inr (.inl rfl)
    · cases hm
  case recv =>
    split at hm
    · rename_i msg chan hpc hch
      simp only [hpc] at hmain
      cases hm
      have hb : RunLife ({ ρ with chan := chan }.book msg) := by
        refine ⟨h.events, h.tasks, h.fresh, ?_, ?_, ?_⟩
        · intro m hmm
          apply h.msgs m
          rw [hch]
          simp only [SysRun.book, List.mem_append, List.mem_cons, List.mem_singleton] at hmm ⊢
          tauto
        · intro k jr hk
          rcases AMap.mem_insert.1 hk with hk | hk
          · cases hk
            exact h.msgs msg (by simp [hch])
          · exact h.results k jr hk.1
        · simp only [MainLife, SysRun.book, hpc]
          exact ⟨hmain.1, nextWfState_cases hmain.2 _⟩
      have hb' := hb.main
      simp only [MainLife, SysRun.book, hpc] at hb'
      unfold SysRun.handle at hev htasks hes ⊢
      simp only at hev htasks hes ⊢
      split at hev
      · rename_i hlen
        simp only [hlen, if_true] at htasks hes ⊢
        refine ⟨hev ⟨[], by simp [SysRun.book], by simp⟩, htasks, by simp, hb.msgs, hb.results, hb'.1, ?_⟩
        show (if _ then _ else _) = _ ∨ (if _ then _ else _) = _ ∨ (if _ then _ else _) = _
        rcases hb'.2 with hx | hx | hx <;> simp [SysRun.book, hx]
      · rename_i hlen
        simp only [hlen, if_false] at htasks hes ⊢
        unfold SysRun.rescan at hev htasks hes ⊢
        rw [foldl_runJob_tasks] at hev htasks hes ⊢
        refine ⟨hev ⟨[], by simp [SysRun.book], by simp⟩, htasks, by simp [SysRun.book, hpc], hb.msgs, hb.results, by
          simp only [MainLife, SysRun.book, hpc]; exact hb'⟩
    · cases hm
  case announce =>
    split at hm
    · rename_i b hpc
      simp only [hpc] at hmain
      cases hm
      exact ⟨hev ⟨_, rfl, by simp⟩, htasks, by simp, h.msgs, h.results, by simp [hmain.1], hmain.2, rfl, h.results⟩
    · cases hm
  case complete =>
    split at hm
    · rename_i r hpc
      simp only [hpc] at hmain
      cases hm
      exact ⟨hev ⟨_, rfl, by simp⟩, htasks, by simp, h.msgs, h.results, hmain.2.2.1, hmain.2.2.2, .inr ⟨hmain.2.1, by simp [hmain.1]⟩⟩
    · cases hm

theorem RunLife.task_move {g g' : SigMgr} {now : Time} {ρ ρ' : SysRun} {i : Nat} {t : SysTask} {a : TaskAct} (h : RunLife ρ)
    (ht : ρ.tasks[i]? = some t) (hs : Sys.taskStep g ρ now i t a = some (g', ρ')) : RunLife ρ' := by
  obtain ⟨t', f1, f2, f3, f4, f5, f6, f7, f8, f9, hc⟩ := taskStep_frame hs
  obtain ⟨u, e1, e2⟩ := (h.tasks t (List.mem_of_getElem? ht)).move hs
  obtain ⟨v, v1, v2⟩ := taskStep_trace hs
  have hlen := (List.getElem?_eq_some_iff.1 ht).1
  have hu : u = t' := by
    have := congrArg (fun l => l[i]?) (e1.symm.trans f1)
    simpa [hlen] using this
  have hv : v = t' := by
    have := congrArg (fun l => l[i]?) (v1.symm.trans f1)
    simpa [hlen] using this
  subst hu
  subst hv
  have htr : mainEvents ρ'.trace = mainEvents ρ.trace := by
    rcases v2 with ⟨h1, _⟩ | ⟨e, h1, _⟩
    · rw [h1]
    · rw [h1]; simp
  refine ⟨?_, ?_, ?_, ?_, by rw [f7]; exact h.results, ?_⟩
  · intro k
    rw [v1, List.getElem?_set]
    have hk := h.events k
    rcases v2 with ⟨h1, h2⟩ | ⟨e, h1, h2⟩
    · rw [h1, hk]
      split
      · rename_i he
        subst he
        rw [ht]
        simp [h2]
      · rfl
    · rw [h1, eventsOf_append, eventsOf_single, hk]
      split
      · rename_i he
        subst he
        rw [ht]
        simp [h2]
      · simp
  · intro x hx
    rw [v1] at hx
    rcases List.mem_or_eq_of_mem_set hx with hx | rfl
    · exact h.tasks x hx
    · exact e2
  · intro hp
    rw [f5] at hp
    rw [v1, h.fresh hp]
    rfl
  · have hfin : ∀ r, t.pc = .finished r → FinalResult r := by
      intro r hr
      have := h.tasks t (List.mem_of_getElem? ht)
      rw [hr] at this
      exact ⟨this.2.1, this.2.2.1⟩
    have hsub : ρ'.chan = ρ.chan ∨ ∃ r, t.pc = .finished r ∧ ρ'.chan = ρ.chan ++ [⟨i, t.key, r⟩] := by
      rcases hc with ⟨e, es, k, _, _, h1⟩ | ⟨k, _, _, h1⟩ | ⟨s, t0, ref, _, _, h1⟩ | ⟨s, t0, _, _, h1⟩ |
        ⟨s, t0, d, ref, sg, _, _, h1⟩ | ⟨r, hpc, _, h1⟩ | ⟨_, h1⟩
      · exact .inl h1
      · exact .inl h1
      · exact .inl h1
      · exact .inl h1
      · exact .inl h1
      · rcases h1 with h1 | h1
        · exact .inl h1
        · exact .inr ⟨r, hpc, h1⟩
      · exact .inl h1
    intro msg hm
    rw [f8] at hm
    rcases hsub with h1 | ⟨r, hr, h1⟩
    · rw [h1] at hm; exact h.msgs msg hm
    · rw [h1] at hm
      simp only [List.mem_append, List.mem_singleton] at hm
      rcases hm with (hm | rfl) | hm
      · exact h.msgs msg (List.mem_append_left _ hm)
      · exact hfin r hr
      · exact h.msgs msg (List.mem_append_right _ hm)
  · have := h.main
    unfold MainLife at this ⊢
    rw [f5, htr, f4.1, f4.2]
    cases hp : ρ.pc with
    | returned r =>
      simp only [hp] at this ⊢
      refine ⟨this.1, this.2.1, ?_⟩
      rcases this.2.2 with ⟨_, _, hx⟩ | hx
      · rw [hx] at ht; simp at ht
      · exact .inr hx
    | _ => simp only [hp] at this ⊢; exact this

theorem runLife_reach {acts : List SysAct} {M : Sys} (h : SysReach acts M) {r : Nat} {ρ : SysRun} (hr : M.runs[r]? = some ρ) : RunLife ρ :=
  run_always RunLife.init (fun _ _ _ _ h hm => h.main_move hm) (fun _ _ _ _ _ _ _ _ h ht hm => h.task_move ht hm) h r ρ hr

end AstroRun
