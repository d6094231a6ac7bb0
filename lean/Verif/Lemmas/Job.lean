import Verif.Spec.Job

namespace AstroRun
open Spec

/-- `job_state` as a function of the results so far. -/
def stateOf (rs : List StepRunResult) : WorkflowState :=
  if Has rs .cancelled then .cancelled else if Has rs .failed then .failed else .inProgress

theorem Has_append (a b : List StepRunResult) (st : WorkflowState) :
    Has (a ++ b) st ↔ Has a st ∨ Has b st := by
  simp [Has, List.mem_append, or_and_right, exists_or]

theorem Has_singleton (r : StepRunResult) (st : WorkflowState) : Has [r] st ↔ r.state = st := by
  simp [Has]

theorem stateOf_snoc (rs : List StepRunResult) (r : StepRunResult)
    (h : stateOf rs = .cancelled → r.state ≠ .failed ∧ r.state ≠ .cancelled) :
    stateOf (rs ++ [r]) = nextJobState (stateOf rs) r := by
  by_cases h1 : Has rs .cancelled
  · have := h (by simp [stateOf, h1])
    unfold nextJobState
    cases hr : r.state <;> simp_all [stateOf, Has_append]
  · by_cases h2 : Has rs .failed <;>
    · cases hr : r.state <;> simp_all [stateOf, Has_append, nextJobState, Has_singleton]

theorem stepRun_state (e : StepEnv) (s : Step) :
    (stepRun e s).2.state = .succeeded ∨ (stepRun e s).2.state = .failed ∨ (stepRun e s).2.state = .cancelled := by
  simp only [stepRun]
  cases e.outcome with
  | refused x => simp [refusedResult]
  | ended logs r => cases r <;> simp [stepResult]

theorem stepRun_ne_skipped (e : StepEnv) (s : Step) : (stepRun e s).2.state ≠ .skipped := by
  rcases stepRun_state e s with h | h | h <;> simp [h]

theorem stepRun_id (e : StepEnv) (s : Step) : (stepRun e s).2.id = (e.before s).id := by
  simp only [stepRun]
  cases e.outcome with
  | refused x => rfl
  | ended logs r => cases r <;> rfl

theorem stepRun_block (e : StepEnv) (s : Step) : StepBlock (e.before s) (stepRun e s).2 (stepRun e s).1 := by
  have h := stepRun_state e s
  simp only [stepRun] at h ⊢
  cases ho : e.outcome with
  | refused x => exact .refused rfl
  | ended logs r =>
    simp only [ho] at h
    simp only
    refine .ran logs ?_
    rcases h with h | h | h <;> simp [h, Over]

/-- What the step loop has produced after the steps `ps`. -/
structure LoopSpec (id : JobId) (ps : List (Step × StepEnv)) (acc : JobAcc) (blocks : List (List Event)) : Prop where
  lenR : acc.results.length = ps.length
  lenB : blocks.length = ps.length
  state : acc.state = stateOf acc.results
  trace : acc.trace = [.runJob id, .jobState id .inProgress] ++ blocks.flatten
  each : ∀ (i : Nat) (h : i < ps.length) (hr : i < acc.results.length) (hb : i < blocks.length),
    if stepSkipped (stateOf (acc.results.take i)) ps[i].1 ps[i].2.condition then
      acc.results[i] = skippedResult ps[i].1.id ∧ blocks[i] = [.stepState ps[i].1.id .skipped]
    else acc.results[i] = (stepRun ps[i].2 ps[i].1).2 ∧ blocks[i] = (stepRun ps[i].2 ps[i].1).1

theorem loop_spec (id : JobId) (ps : List (Step × StepEnv)) :
    ∃ blocks, LoopSpec id ps (ps.foldl JobAcc.step (JobAcc.start id)) blocks := by
  obtain ⟨n, hn⟩ : ∃ n, ps.length = n := ⟨_, rfl⟩
  induction n generalizing ps with
  | zero =>
    have : ps = [] := List.length_eq_zero_iff.1 hn
    subst this
    refine ⟨[], ⟨rfl, rfl, ?_, by simp [JobAcc.start], by simp⟩⟩
    simp [JobAcc.start, stateOf, Has]
  | succ n ih =>
    rcases List.eq_nil_or_concat ps with rfl | ⟨qs, p, rfl⟩
    · simp at hn
    · rw [List.concat_eq_append] at hn ⊢
      obtain ⟨blocks, hq⟩ := ih qs (by simpa using hn)
      simp only [List.foldl_append, List.foldl_cons, List.foldl_nil]
      generalize hacc : qs.foldl JobAcc.step (JobAcc.start id) = acc at hq
      have hlen : acc.results.length = qs.length := hq.lenR
      -- shape of the extended list lemma
      have ext : ∀ (r : StepRunResult) (b : List Event) (acc' : JobAcc),
          acc'.results = acc.results ++ [r] → acc'.trace = acc.trace ++ b →
          acc'.state = stateOf (acc.results ++ [r]) →
          (if stepSkipped (stateOf acc.results) p.1 p.2.condition then
            r = skippedResult p.1.id ∧ b = [.stepState p.1.id .skipped]
          else r = (stepRun p.2 p.1).2 ∧ b = (stepRun p.2 p.1).1) →
          LoopSpec id (qs ++ [p]) acc' (blocks ++ [b]) := by
        intro r b acc' h1 h2 h3 h4
        refine ⟨by simp [h1, hlen], by simp [hq.lenB], by rw [h3, h1], by rw [h2, hq.trace]; simp, ?_⟩
        intro i hi hr hb
        by_cases hlt : i < qs.length
        · have hr' : i < acc.results.length := by omega
          have := hq.each i hlt hr' (by rw [hq.lenB]; omega)
          simp only [h1, List.getElem_append_left hlt, List.getElem_append_left hr',
            List.getElem_append_left (as := blocks) (i := i) (by rw [hq.lenB]; omega),
            List.take_append_of_le_length (Nat.le_of_lt hr')]
          exact this
        · have hi' : i = qs.length := by simp at hi; omega
          subst hi'
          have e1 : (qs ++ [p])[qs.length] = p := by simp
          have e2 : acc'.results[qs.length] = r := by simp [h1, ← hlen]
          have e3 : (blocks ++ [b])[qs.length] = b := by simp [← hq.lenB]
          have e4 : acc'.results.take qs.length = acc.results := by simp [h1, ← hlen]
          rw [e1, e2, e3, e4]
          exact h4
      unfold JobAcc.step
      by_cases hs : stepSkipped acc.state p.1 p.2.condition = true
      · simp only [hs, if_true]
        refine ⟨_, ext (skippedResult p.1.id) [.stepState p.1.id .skipped] _ rfl rfl ?_ ?_⟩
        · rw [stateOf_snoc _ _ (by intro _; simp [skippedResult])]
          simp [nextJobState, skippedResult, hq.state]
        · rw [hq.state] at hs; simp [hs]
      · simp only [hs, if_false, Bool.false_eq_true]
        refine ⟨_, ext (stepRun p.2 p.1).2 (stepRun p.2 p.1).1 _ rfl rfl ?_ ?_⟩
        · rw [stateOf_snoc]
          · rw [hq.state]
          · intro hc
            exfalso; apply hs
            rw [hq.state, hc]; simp [stepSkipped]
        · rw [hq.state] at hs; simp [hs]

theorem stepEnvs_length (job : Job) (env : JobEnv) : (job.stepEnvs env).length = job.steps.length := by
  simp [Job.stepEnvs]

theorem stepEnvs_getElem (job : Job) (env : JobEnv) (i : Nat) (h : i < (job.stepEnvs env).length)
    (h' : i < job.steps.length) : (job.stepEnvs env)[i] = (job.steps[i], env.step i) := by
  simp [Job.stepEnvs]

theorem shouldSkip_iff (on : Option Condition) (b : Bool) : shouldSkip on b = true ↔ ¬ Matches on b := by
  cases on <;> cases b <;> simp [shouldSkip, Matches]

/-- Everything about a job run that is not skipped, in terms of its results. -/
structure RunSpec (env : JobEnv) (job : Job) (blocks : List (List Event)) : Prop where
  lenR : (jobRun env job).2.steps.length = job.steps.length
  lenB : blocks.length = job.steps.length
  state : (jobRun env job).2.state =
    (if (stateOf (jobRun env job).2.steps).isInProgress then .succeeded else stateOf (jobRun env job).2.steps)
  result : (jobRun env job).2.id = job.id ∧ (jobRun env job).2.startedAt = some env.startedAt ∧
    (jobRun env job).2.completedAt = some env.completedAt
  trace : (jobRun env job).1 = [.runJob job.id, .jobState job.id .inProgress] ++ blocks.flatten ++
    [.jobState job.id (jobRun env job).2.state, .jobCompleted (jobRun env job).2]
  each : ∀ (i : Nat) (h : i < job.steps.length) (hr : i < (jobRun env job).2.steps.length) (hb : i < blocks.length),
    if stepSkipped (stateOf ((jobRun env job).2.steps.take i)) job.steps[i] (env.step i).condition then
      (jobRun env job).2.steps[i] = skippedResult job.steps[i].id ∧
        blocks[i] = [.stepState job.steps[i].id .skipped]
    else (jobRun env job).2.steps[i] = (stepRun (env.step i) job.steps[i]).2 ∧
      blocks[i] = (stepRun (env.step i) job.steps[i]).1

theorem run_spec {env : JobEnv} {job : Job} (h : Matches job.on env.condition) :
    ∃ blocks, RunSpec env job blocks := by
  have hs : ¬ shouldSkip job.on env.condition = true := by rw [shouldSkip_iff]; simpa using h
  obtain ⟨blocks, hl⟩ := loop_spec job.id (job.stepEnvs env)
  have hrun : jobRun env job = ((job.stepEnvs env).foldl JobAcc.step (JobAcc.start job.id)).finish job.id
      env.startedAt env.completedAt := by simp [jobRun, hs]
  generalize (job.stepEnvs env).foldl JobAcc.step (JobAcc.start job.id) = acc at hl hrun
  have hsteps : (jobRun env job).2.steps = acc.results := by rw [hrun]; rfl
  refine ⟨blocks, ?_, ?_, ?_, ?_, ?_, ?_⟩
  · rw [hsteps, hl.lenR, stepEnvs_length]
  · rw [hl.lenB, stepEnvs_length]
  · rw [hsteps, hrun, ← hl.state]; rfl
  · rw [hrun]; exact ⟨rfl, rfl, rfl⟩
  · rw [hrun]; simp only [JobAcc.finish, hl.trace]
  · intro i h hr hb
    have := hl.each i (by rw [stepEnvs_length]; exact h) (by rw [← hsteps]; exact hr) hb
    simp only [stepEnvs_getElem job env i (by rw [stepEnvs_length]; exact h) h] at this
    simp only [hsteps]
    exact this

theorem skipped_iff {env : JobEnv} {job : Job} {blocks : List (List Event)} (hr : RunSpec env job blocks)
    (i : Nat) (h : i < job.steps.length) (h' : i < (jobRun env job).2.steps.length) :
    (jobRun env job).2.steps[i].state = .skipped ↔
      stepSkipped (stateOf ((jobRun env job).2.steps.take i)) job.steps[i] (env.step i).condition = true := by
  have := hr.each i h h' (by rw [hr.lenB]; exact h)
  split at this
  · rename_i hs; simp [hs, this.1, skippedResult]
  · rename_i hs
    simp only [hs]
    simp [this.1, stepRun_ne_skipped]

end AstroRun
