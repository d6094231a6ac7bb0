import Verif.Lemmas.Job

/-! # C10–C16, C18: what a job run and a step run produce (sequential view) -/

namespace AstroRun
open Spec

/-- **C10** One result per configured step, in order; skipped ones are blank but for their id, executed ones
carry the id of the step that was executed (the configured one unless a before-step hook changed it). -/
theorem C10_one_result_per_step (env : JobEnv) (job : Job) (h : Matches job.on env.condition) :
    (jobRun env job).2.steps.length = job.steps.length ∧
    ∀ (i : Nat) (hi : i < job.steps.length) (hi' : i < (jobRun env job).2.steps.length),
      ((jobRun env job).2.steps[i].state = .skipped →
        (jobRun env job).2.steps[i] =
          { id := job.steps[i].id, state := .skipped, exitCode := none, startedAt := none, completedAt := none }) ∧
      ((jobRun env job).2.steps[i].state ≠ .skipped →
        (jobRun env job).2.steps[i].id = ((env.step i).before job.steps[i]).id ∧
        (jobRun env job).2.steps[i].startedAt = some (env.step i).startedAt ∧
        (jobRun env job).2.steps[i].completedAt = some (env.step i).completedAt) := by
  obtain ⟨blocks, hr⟩ := run_spec h
  refine ⟨hr.lenR, fun i hi hi' => ⟨fun hs => ?_, fun hs => ?_⟩⟩
  · have := hr.each i hi hi' (by rw [hr.lenB]; exact hi)
    rw [(skipped_iff hr i hi hi').1 hs] at this
    simpa [skippedResult] using this.1
  · have := hr.each i hi hi' (by rw [hr.lenB]; exact hi)
    have hne : ¬ stepSkipped (stateOf ((jobRun env job).2.steps.take i)) job.steps[i]
        (env.step i).condition = true := fun hc => hs ((skipped_iff hr i hi hi').2 hc)
    rw [if_neg hne] at this
    rw [this.1]
    refine ⟨stepRun_id _ _, ?_⟩
    simp only [stepRun]
    cases (env.step i).outcome with
    | refused x => exact ⟨rfl, rfl⟩
    | ended logs r => cases r <;> exact ⟨rfl, rfl⟩

/-- **C11** With a failure and no cancellation before it, a step is skipped unless it has continue-on-error,
in which case only its own condition decides; with neither failure nor cancellation before it, only its own
condition decides. -/
theorem C11_failure_skips (env : JobEnv) (job : Job) (h : Matches job.on env.condition)
    (i : Nat) (hi : i < job.steps.length) (hi' : i < (jobRun env job).2.steps.length)
    (hc : ¬ Has ((jobRun env job).2.steps.take i) .cancelled) :
    (Has ((jobRun env job).2.steps.take i) .failed → job.steps[i].continueOnError = false →
      (jobRun env job).2.steps[i].state = .skipped) ∧
    ((Has ((jobRun env job).2.steps.take i) .failed → job.steps[i].continueOnError = true) →
      ((jobRun env job).2.steps[i].state = .skipped ↔
        ¬ Matches job.steps[i].on (env.step i).condition)) := by
  obtain ⟨blocks, hr⟩ := run_spec h
  refine ⟨fun hf hco => ?_, fun hco => ?_⟩
  · rw [skipped_iff hr i hi hi']
    simp [stateOf, hc, hf, stepSkipped, hco]
  · rw [skipped_iff hr i hi hi', ← shouldSkip_iff]
    by_cases hf : Has ((jobRun env job).2.steps.take i) .failed
    · simp [stateOf, hc, hf, stepSkipped, hco hf]
    · simp [stateOf, hc, hf, stepSkipped]

/-- **C12** After a cancelled step everything is skipped. -/
theorem C12_cancel_skips (env : JobEnv) (job : Job) (h : Matches job.on env.condition)
    (i : Nat) (hi' : i < (jobRun env job).2.steps.length)
    (hc : Has ((jobRun env job).2.steps.take i) .cancelled) :
    (jobRun env job).2.steps[i].state = .skipped := by
  obtain ⟨blocks, hr⟩ := run_spec h
  rw [skipped_iff hr i (by rw [← hr.lenR]; exact hi') hi']
  simp [stateOf, hc, stepSkipped]

/-- **C13** The job's state from its step results. -/
theorem C13_job_outcome (env : JobEnv) (job : Job) (h : Matches job.on env.condition) :
    (Has (jobRun env job).2.steps .cancelled → (jobRun env job).2.state = .cancelled) ∧
    (¬ Has (jobRun env job).2.steps .cancelled → Has (jobRun env job).2.steps .failed →
      (jobRun env job).2.state = .failed) ∧
    (¬ Has (jobRun env job).2.steps .cancelled → ¬ Has (jobRun env job).2.steps .failed →
      (jobRun env job).2.state = .succeeded) := by
  obtain ⟨blocks, hr⟩ := run_spec h
  have := hr.state
  refine ⟨fun h1 => ?_, fun h1 h2 => ?_, fun h1 h2 => ?_⟩
  · rw [this]; simp [stateOf, h1, WorkflowState.isInProgress]
  · rw [this]; simp [stateOf, h1, h2, WorkflowState.isInProgress]
  · rw [this]; simp [stateOf, h1, h2, WorkflowState.isInProgress]

/-- A skipped job: its result is blank. -/
theorem C13_skipped_job (env : JobEnv) (job : Job) (h : ¬ Matches job.on env.condition) :
    (jobRun env job).2 =
      { id := job.id, state := .skipped, startedAt := none, completedAt := none, steps := [] } := by
  simp [jobRun, (shouldSkip_iff _ _).2 h, skippedJobResult]

/-- **C14** The notifications of a job run: start, in progress, the blocks of the steps one after the other,
one terminal state, completion with the returned result; a skipped job announces only that. -/
theorem C14_event_bracket (env : JobEnv) (job : Job) :
    (¬ Matches job.on env.condition → (jobRun env job).1 = [.jobState job.id .skipped]) ∧
    (Matches job.on env.condition → ∃ blocks : List (List Event),
      blocks.length = job.steps.length ∧
      (jobRun env job).1 = [.runJob job.id, .jobState job.id .inProgress] ++ blocks.flatten ++
        [.jobState job.id (jobRun env job).2.state, .jobCompleted (jobRun env job).2] ∧
      Over (jobRun env job).2.state ∧ (jobRun env job).2.id = job.id ∧
      ∀ (i : Nat) (hb : i < blocks.length) (hi : i < job.steps.length) (hi' : i < (jobRun env job).2.steps.length),
        ((jobRun env job).2.steps[i].state = .skipped → blocks[i] = [.stepState job.steps[i].id .skipped]) ∧
        ((jobRun env job).2.steps[i].state ≠ .skipped →
          StepBlock ((env.step i).before job.steps[i]) (jobRun env job).2.steps[i] blocks[i])) := by
  refine ⟨fun h => by simp [jobRun, (shouldSkip_iff _ _).2 h], fun h => ?_⟩
  obtain ⟨blocks, hr⟩ := run_spec h
  refine ⟨blocks, hr.lenB, hr.trace, ?_, hr.result.1, fun i hb hi hi' => ⟨fun hs => ?_, fun hs => ?_⟩⟩
  · rw [hr.state]; unfold stateOf
    split <;> (try split) <;> (try split) <;> simp_all [WorkflowState.isInProgress, Over]
  · have := hr.each i hi hi' hb
    rw [(skipped_iff hr i hi hi').1 hs] at this
    exact this.2
  · have := hr.each i hi hi' hb
    have hne : ¬ stepSkipped (stateOf ((jobRun env job).2.steps.take i)) job.steps[i]
        (env.step i).condition = true := fun hc => hs ((skipped_iff hr i hi hi').2 hc)
    rw [if_neg hne] at this
    rw [this.1, this.2]
    exact stepRun_block _ _

theorem runnerCalls_block {s : Step} {r : StepRunResult} {ev : List Event} (h : StepBlock s r ev) :
    runnerCalls ev = [s.toCommand] := by
  have hlogs : ∀ logs : List Log, runnerCalls (logs.map (Event.log s.id)) = [] := by
    intro logs; simp [runnerCalls, List.filterMap_map, Function.comp_def]
  cases h with
  | refused _ => rfl
  | ran logs _ =>
    have : ∀ a b, runnerCalls (a ++ b) = runnerCalls a ++ runnerCalls b := by simp [runnerCalls]
    rw [this, this, hlogs]
    rfl

/-- **C15** The runner is called exactly once for each step that is not skipped, in order; together with C14
(the call lies inside the step's block, which ends with the step's completion) one at a time.  A skipped job
calls it never. -/
theorem C15_runner_calls (env : JobEnv) (job : Job) :
    (Matches job.on env.condition → runnerCalls (jobRun env job).1 =
      (List.range job.steps.length).filterMap (fun i =>
        match job.steps[i]?, (jobRun env job).2.steps[i]? with
        | some s, some r => if r.state = .skipped then none else some ((env.step i).before s).toCommand
        | _, _ => none)) ∧
    (¬ Matches job.on env.condition → runnerCalls (jobRun env job).1 = []) := by
  refine ⟨fun h => ?_, fun h => by simp [jobRun, (shouldSkip_iff _ _).2 h, runnerCalls]⟩
  obtain ⟨blocks, hl, htr, _, _, hb⟩ := (C14_event_bracket env job).2 h
  have happ : ∀ a b, runnerCalls (a ++ b) = runnerCalls a ++ runnerCalls b := by simp [runnerCalls]
  have hR := (C10_one_result_per_step env job h).1
  rw [htr, happ, happ]
  have e1 : runnerCalls [Event.runJob job.id, .jobState job.id .inProgress] = [] := rfl
  have e2 : runnerCalls [Event.jobState job.id (jobRun env job).2.state, .jobCompleted (jobRun env job).2] = [] := rfl
  rw [e1, e2, List.nil_append, List.append_nil]
  have key : ∀ (bs : List (List Event)) (f : Nat → Option Command),
      (∀ (i : Nat) (hi : i < bs.length), runnerCalls bs[i] = (f i).toList) →
      runnerCalls bs.flatten = (List.range bs.length).filterMap f := by
    intro bs
    induction bs with
    | nil => intro f _; rfl
    | cons b bs ih =>
      intro f hf
      have h0 := hf 0 (by simp)
      have := ih (fun i => f (i + 1)) (fun i hi => by
        have := hf (i + 1) (by simp; omega)
        simpa using this)
      rw [List.flatten_cons, happ, this, List.length_cons, List.range_succ_eq_map, List.filterMap_cons,
        List.filterMap_map]
      simp only [List.getElem_cons_zero] at h0
      rw [h0]
      cases f 0 <;> simp [Function.comp_def]
  rw [← hl]
  apply key
  intro i hi
  have hi1 : i < job.steps.length := by omega
  have hi2 : i < (jobRun env job).2.steps.length := by omega
  simp only [List.getElem?_eq_getElem hi1, List.getElem?_eq_getElem hi2]
  by_cases hs : (jobRun env job).2.steps[i].state = .skipped
  · rw [(hb i hi hi1 hi2).1 hs]; simp [hs, runnerCalls]
  · rw [runnerCalls_block ((hb i hi hi1 hi2).2 hs)]; simp [hs]

/-- **C16** The states announced for an executed step: queued, in progress, one terminal state; or queued,
failed when the runner refuses it.  Completion is announced once, as the last notification, with the returned
result. -/
theorem C16_step_life_cycle (e : StepEnv) (step : Step) :
    let s := e.before step
    (∀ x, e.outcome = .refused x → statesOf s.id (stepRun e step).1 = [.queued, .failed]) ∧
    (∀ logs r, e.outcome = .ended logs r →
      statesOf s.id (stepRun e step).1 = [.queued, .inProgress, (stepRun e step).2.state]) ∧
    Over (stepRun e step).2.state ∧
    (∃ front, (stepRun e step).1 = front ++ [.stepState s.id (stepRun e step).2.state,
        .stepCompleted (stepRun e step).2] ∧
      ∀ r, Event.stepCompleted r ∉ front) := by
  intro s
  have hlogs : ∀ logs : List Log, statesOf s.id (logs.map (Event.log s.id)) = [] := by
    intro logs; simp [statesOf, List.filterMap_map, Function.comp_def]
  have happ : ∀ a b, statesOf s.id (a ++ b) = statesOf s.id a ++ statesOf s.id b := by simp [statesOf]
  refine ⟨fun x hx => ?_, fun logs r hr => ?_, ?_, ?_⟩
  · simp [stepRun, hx, statesOf, s]
  · have : (stepRun e step).1 = [.runStep s, .stepState s.id .queued, .runnerRun s.toCommand,
        .stepState s.id .inProgress] ++ logs.map (.log s.id) ++
        [.stepState s.id (stepRun e step).2.state, .stepCompleted (stepRun e step).2] := by
      simp [stepRun, hr, s]
    rw [this, happ, happ, hlogs]
    simp [statesOf]
  · rcases stepRun_state e step with h | h | h <;> simp [h, Over]
  · cases ho : e.outcome with
    | refused x =>
      refine ⟨[.runStep s, .stepState s.id .queued, .runnerRun s.toCommand], ?_, by simp⟩
      simp [stepRun, ho, s, refusedResult]
    | ended logs r =>
      refine ⟨[.runStep s, .stepState s.id .queued, .runnerRun s.toCommand, .stepState s.id .inProgress] ++
        logs.map (.log s.id), ?_, ?_⟩
      · simp [stepRun, ho, s]
      · intro r hr; simp at hr

/-- **C18** Exit codes and timestamps. -/
theorem C18_exit_code_mapping (e : StepEnv) (step : Step) :
    let r := (stepRun e step).2
    ((∃ x, e.outcome = .refused x) → r.state = .failed ∧ r.exitCode = some 1) ∧
    (∀ logs res, e.outcome = .ended logs res →
      ((r.state = .succeeded ∧ r.exitCode = none) ↔ res = .succeeded) ∧
      (∀ c, (r.state = .failed ∧ r.exitCode = some c) ↔ res = .failed c) ∧
      ((r.state = .cancelled ∧ r.exitCode = none) ↔ res = .cancelled)) ∧
    r.startedAt = some e.startedAt ∧ r.completedAt = some e.completedAt := by
  simp only [stepRun]
  cases ho : e.outcome with
  | refused x => simp [refusedResult]
  | ended logs res => cases res <;> simp [stepResult]

/-! ## Witnesses -/

namespace JobEx
/-- step number `n` of job w/j -/
def st (n : Nat) (coe : Bool := false) (on : Option Condition := none) : Step :=
  { id := ⟨"w", "j", n⟩, run := "true", continueOnError := coe, on := on }
/-- four steps: plain, plain, continue-on-error, conditional -/
def job : Job :=
  { id := ⟨"w", "j"⟩, steps := [st 0, st 1, st 2 true, st 3 true (some (.event ["push"]))] }
/-- step 0 fails with 3, the others succeed, the condition of step 3 does not hold -/
def env : JobEnv :=
  { step := fun i => {
      condition := decide (i ≠ 3)
      outcome := if i = 0 then .ended [.ofLog "hi"] (.failed 3) else .ended [] .succeeded } }
/-- step 0 is cancelled -/
def envC : JobEnv := { step := fun i => { outcome := if i = 0 then .ended [] .cancelled else .ended [] .succeeded } }
end JobEx

example : Matches JobEx.job.on JobEx.env.condition ∧
    (jobRun JobEx.env JobEx.job).2.steps.map StepRunResult.state = [.failed, .skipped, .succeeded, .skipped] ∧
    (jobRun JobEx.env JobEx.job).2.state = .failed ∧
    Has ((jobRun JobEx.env JobEx.job).2.steps.take 1) .failed ∧
    ¬ Has ((jobRun JobEx.env JobEx.job).2.steps.take 1) .cancelled ∧
    (runnerCalls (jobRun JobEx.env JobEx.job).1).map (fun c => c.id.number) = [0, 2] := by
  refine ⟨.inl rfl, ?_⟩
  decide

example : Matches JobEx.job.on JobEx.envC.condition ∧ Has ((jobRun JobEx.envC JobEx.job).2.steps.take 2) .cancelled ∧
    (jobRun JobEx.envC JobEx.job).2.steps.map StepRunResult.state = [.cancelled, .skipped, .skipped, .skipped] := by
  refine ⟨.inl rfl, ?_⟩
  decide

end AstroRun
