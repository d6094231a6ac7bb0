import Verif.Lemmas.TimingExact
import Verif.Props.System

/-! # C81: time stamps -/

namespace AstroRun
open Spec

/-- **C81** A returned workflow was skipped and has no stamps and no jobs, or it carries start and end, in order and not in
the future; every job result was skipped and has no stamps and no steps, or lies within the workflow; every step result of
such a job was skipped and has no stamps, or lies within the job; and the steps follow one another. -/
theorem C81_nested (acts : List SysAct) (M : Sys) (h : SysReach acts M) (r : Nat) (ρ : SysRun) (hr : M.runs[r]? = some ρ)
    (res : WorkflowRunResult) (hp : ρ.pc = .returned res) : WorkflowStamps M.now res :=
  ((runTimes_reach h r ρ hr).done res (.inr hp)).1

/-- **C81** A job run starts only after results of all jobs it depends on have been delivered, and those jobs completed
before its start (as the stamps say). -/
theorem C81_dependents (acts : List SysAct) (M : Sys) (h : SysReach acts M) (r : Nat) (ρ : SysRun) (hr : M.runs[r]? = some ρ)
    (i : Nat) (t : SysTask) (ht : ρ.tasks[i]? = some t) (jr : JobRunResult) (ha : SysTask.answer t = some jr)
    (d : Id) (hd : d ∈ t.job.dependsOn) :
    ∃ msg ∈ ρ.received, msg.key = d ∧ ∀ x y, msg.result.completedAt = some x → jr.startedAt = some y → x ≤ y := by
  obtain ⟨lo, _, _, h3, h4⟩ := (runTimes_reach h r ρ hr).tasks i t ht
  obtain ⟨msg, hm, hk, hx⟩ := h4 d hd
  refine ⟨msg, hm, hk, ?_⟩
  intro x y hx' hy
  have hst : JobStamps lo M.now jr := by
    unfold SysTask.answer at ha
    split at ha
    · rename_i q hpc; cases ha; rw [hpc] at h3; exact h3
    · rename_i q hpc; cases ha; rw [hpc] at h3; exact h3
    · cases ha
  rcases hst.own with ⟨_, hn, _⟩ | ⟨_, a, b, ha', _, hle, _⟩
  · rw [hn] at hy; cases hy
  · rw [ha'] at hy
    cases hy
    exact Nat.le_trans (hx x hx') hle

/-- Tasks run jobs of the workflow. -/
structure RunJobs (ρ : SysRun) : Prop where
  tasks : ∀ (i : Nat) (t : SysTask), ρ.tasks[i]? = some t → (t.key, t.job) ∈ ρ.wf.jobs
  waiting : ∀ e ∈ ρ.waiting, e ∈ ρ.wf.jobs
  setup : ∀ rest, ρ.pc = .setup rest → ∀ e ∈ rest, e ∈ ρ.wf.jobs

theorem runJobs_reach {acts : List SysAct} {M : Sys} (h : SysReach acts M) :
    ∀ (r : Nat) (ρ : SysRun), M.runs[r]? = some ρ → RunJobs ρ := by
  refine runs_induct (P := fun _ M => ∀ (r : Nat) (ρ : SysRun), M.runs[r]? = some ρ → RunJobs ρ) ?_ ?_ h
  · intro r ρ hr
    simp at hr
  · intro _ M a M' _ ih hs r ρ hr
    rcases sys_step_cases hs with ⟨wf, rfl, rfl⟩ | ⟨n, b, ρ₁, ρ₂, rfl, hρ, hm, rfl⟩ |
      ⟨n, i, b, ρ₁, t, g', ρ₂, rfl, hρ, ht, hm, rfl⟩ | ⟨n, rfl, rfl⟩ | ⟨j, x, rfl, rfl⟩
    · simp only [List.getElem?_append] at hr
      split at hr
      · exact ih r ρ hr
      · obtain rfl := List.mem_singleton.1 (List.mem_of_getElem? hr)
        exact ⟨by simp, by simp, by simp⟩
    · simp only [List.getElem?_set] at hr
      split at hr
      · split at hr
        · cases hr
          have h1 := ih n ρ₁ hρ
          obtain ⟨hw, ⟨es, hes, ht⟩, hwt, hst⟩ := main_tasks hm h1.waiting h1.setup
          refine ⟨?_, by rwa [hw], by rwa [hw]⟩
          intro i t hi
          rw [hw]
          rw [ht, List.getElem?_append] at hi
          split at hi
          · exact h1.tasks i t hi
          · obtain ⟨e, he, rfl⟩ := List.mem_map.1 (List.mem_of_getElem? hi)
            exact hes e he
        · cases hr
      · exact ih r ρ hr
    · simp only [List.getElem?_set] at hr
      split at hr
      · split at hr
        · cases hr
          have h1 := ih n ρ₁ hρ
          obtain ⟨t', f1, f2, f3, f4, f5, _, _, _, f9, _⟩ := taskStep_frame hm
          refine ⟨?_, by rw [f9, f4.1]; exact h1.waiting, by rw [f5, f4.1]; exact h1.setup⟩
          intro k u hu
          rw [f4.1]
          rw [f1, List.getElem?_set] at hu
          split at hu
          · have : t' = u := by simpa [(List.getElem?_eq_some_iff.1 ht).1] using hu
            subst this
            rw [f2, f3]
            exact h1.tasks i t ht
          · exact h1.tasks k u hu
        · cases hr
      · exact ih r ρ hr
    · exact ih r ρ hr
    · exact ih r ρ hr

/-- **C81** (partial) In the returned result every job starts after the jobs it depends on completed, if no job ran twice.
Missing for the full claim: runs in which a job ran twice (C02), see `C81_dependents_refuted`. -/
theorem C81_dependents_in_result_partial (acts : List SysAct) (M : Sys) (h : SysReach acts M) (r : Nat) (ρ : SysRun)
    (hr : M.runs[r]? = some ρ) (hu : UniqueJobs ρ.wf) (hone : ∀ k i j, RunsJob ρ i k → RunsJob ρ j k → i = j)
    (res : WorkflowRunResult) (hp : ρ.pc = .returned res) (k d : Id) (hd : DependsOn ρ.wf k d) (jr dr : JobRunResult)
    (hk : (k, jr) ∈ res.jobs) (hdr : (d, dr) ∈ res.jobs) (x y : Time) (hx : dr.completedAt = some x) (hy : jr.startedAt = some y) :
    x ≤ y := by
  have hT := runTimes_reach h r ρ hr
  have hJ := runJobs_reach h r ρ hr
  obtain ⟨_, _, hsub⟩ := hT.done res (.inr hp)
  -- the results are what the tasks sent
  have sent : ∀ k jr, (k, jr) ∈ res.jobs → ∃ (i : Nat) (t : SysTask), ρ.tasks[i]? = some t ∧ t.key = k ∧ t.pc = .sent jr := by
    intro k jr hk
    obtain ⟨msg, hm, rfl, rfl⟩ := hT.results k jr (hsub k jr hk)
    obtain ⟨t, h1, h2, h3⟩ := hT.msgs msg (List.mem_append_right _ hm)
    exact ⟨_, t, h1, h2, h3⟩
  obtain ⟨i, t, h1, h2, h3⟩ := sent k jr hk
  obtain ⟨n, u, u1, u2, u3⟩ := sent d dr hdr
  obtain ⟨j, hj, hdj⟩ := hd
  have hjob : t.job = j := job_unique hu (h2 ▸ hJ.tasks i t h1) hj
  obtain ⟨msg, hm, hmk, hle⟩ := C81_dependents acts M h r ρ hr i t h1 jr (by simp [SysTask.answer, h3]) d (hjob ▸ hdj)
  obtain ⟨v, v1, v2, v3⟩ := hT.msgs msg (List.mem_append_right _ hm)
  have : n = msg.sender := hone d n msg.sender ⟨u, u1, u2⟩ ⟨v, v1, v2.trans hmk⟩
  subst this
  rw [u1] at v1
  cases v1
  rw [u3] at v3
  cases v3
  exact hle x y hx hy

/-- **C81 fails** for the stamps of dependencies in the returned result, in an accepted configuration: when a job with
dependencies is started twice (C02) its later result replaces the one its dependents waited for, and the result says that
the dependent started before its dependency completed. -/
theorem C81_dependents_refuted : ∃ (env : ParseEnv) (c : UserWorkflow) (wf : Workflow) (acts : List SysAct) (M : Sys) (ρ : SysRun)
    (res : WorkflowRunResult) (k d : Id) (jr dr : JobRunResult) (x y : Time), buildWorkflow env "w" c = .ok wf ∧
    started acts = [wf] ∧ SysReach acts M ∧ M.runs[0]? = some ρ ∧ ρ.pc = .returned res ∧ DependsOn wf k d ∧ (k, jr) ∈ res.jobs ∧
    (d, dr) ∈ res.jobs ∧ dr.completedAt = some x ∧ jr.startedAt = some y ∧ y < x := by
  refine ⟨ParserEx.env, TimingEx.config, TimingEx.wf, TimingEx.again, SystemEx.after TimingEx.again, _, _, "e", "c", _, _, 5, 0,
    by decide, rfl, rfl, rfl, rfl, ⟨_, List.mem_cons_self, by decide⟩, List.mem_cons_self, List.mem_cons_of_mem _ List.mem_cons_self,
    rfl, rfl, by decide⟩

/-! ## The stamps are the clock's -/

/-- **C81** The start stamp of a workflow is the time at which its condition was checked. -/
theorem C81_workflow_start (pre post : List SysAct) (r : Nat) (b : Bool) (M0 M : Sys) (h0 : SysReach pre M0)
    (h : SysReach (pre ++ .main r (.check b) :: post) M) (ρ : SysRun) (hr : M.runs[r]? = some ρ) (res : WorkflowRunResult)
    (hp : ρ.pc = .returned res) (hs : res.state ≠ .skipped) : res.startedAt = some M0.now := by
  obtain ⟨M1, hstep, hrest⟩ := split_reach h0 h
  have hdone := (runTimes_reach h r ρ hr).done res (.inr hp)
  have key : ∃ ρ', M.runs[r]? = some ρ' ∧ ((ρ'.pc ≠ .init ∧ ρ'.startedAt = M0.now) ∨
      ∃ res', ρ'.pc = .returned res' ∧ res'.state = .skipped) := by
    have h1 : ∃ ρ1, M1.runs[r]? = some ρ1 ∧ ((ρ1.pc ≠ .init ∧ ρ1.startedAt = M0.now) ∨
        ∃ res', ρ1.pc = .returned res' ∧ res'.state = .skipped) := by
      rcases sys_step_cases hstep with ⟨wf, h1, _⟩ | ⟨n, b', ρ₁, ρ₂, h1, hρ, hm, rfl⟩ |
        ⟨n, j, b', ρ, t, g', ρ', h1, _⟩ | ⟨n, h1, _⟩ | ⟨j, x, h1, _⟩
      all_goals cases h1
      refine ⟨ρ₂, by simp [(List.getElem?_eq_some_iff.1 hρ).1], ?_⟩
      simp only [SysRun.main] at hm
      split at hm
      · split at hm <;> cases hm
        · exact .inr ⟨_, rfl, rfl⟩
        · exact .inl ⟨by simp, rfl⟩
      · cases hm
    obtain ⟨ρ1, e1, e2⟩ := h1
    refine run_persist (r := r) ?_ ?_ post e1 e2 hrest
    · rintro now ρ a ρ' (⟨hp, hq⟩ | ⟨res', hp, hq⟩) hm
      · left
        cases a <;> simp only [SysRun.main] at hm
        case check b => cases hm
        case spawn =>
          split at hm
          · cases hm; exact ⟨by simp, hq⟩
          · cases hm
            unfold SysRun.setupJob
            split <;> exact ⟨by simp, hq⟩
          · cases hm
        case recv =>
          split at hm
          · rename_i hl _
            cases hm
            unfold SysRun.handle
            simp only
            split
            · exact ⟨by simp, hq⟩
            · unfold SysRun.rescan
              rw [foldl_runJob_tasks]
              refine ⟨?_, hq⟩
              show ρ.pc ≠ _
              rw [hl]; simp
          · cases hm
        case announce => split at hm <;> cases hm; exact ⟨by simp, hq⟩
        case complete => split at hm <;> cases hm; exact ⟨by simp, hq⟩
      · exfalso
        cases a <;> simp [SysRun.main, hp] at hm
    · intro g g' now ρ ρ' i t a hP ht hm
      obtain ⟨_, _, _, _, _, f5, f6, _⟩ := taskStep_frame hm
      rw [f5, f6]
      exact hP
  obtain ⟨ρ', hr', hc⟩ := key
  rw [hr] at hr'
  cases hr'
  rcases hc with ⟨_, hc⟩ | ⟨res', h1, h2⟩
  · rcases hdone.2.1 with hn | hn
    · rcases hdone.1 with hsk | ⟨_, a, b, ha, _⟩
      · exact absurd hsk.1 hs
      · rw [hn] at ha; cases ha
    · rw [hn, hc]
  · rw [hp] at h1
    cases h1
    exact absurd h2 hs

/-- **C81** The end stamp of a workflow is the time at which it received its last job result. -/
theorem C81_workflow_end (acts : List SysAct) (M : Sys) (h : SysReach acts M) (r : Nat) (ρ : SysRun) (hr : M.runs[r]? = some ρ)
    (res : WorkflowRunResult) (hp : ρ.pc = .returned res) (b : Time) (hb : res.completedAt = some b) :
    ∃ pre post M0, acts = pre ++ .main r .recv :: post ∧ SysReach pre M0 ∧ M0.now = b ∧ .main r .recv ∉ post := by
  have key : ∀ (r : Nat) (ρ : SysRun), M.runs[r]? = some ρ → ∀ b, (ρ.pc = .finishing b ∨
      ∃ res, (ρ.pc = .completing res ∨ ρ.pc = .returned res) ∧ res.completedAt = some b) →
      ∃ pre post M0, acts = pre ++ .main r .recv :: post ∧ SysReach pre M0 ∧ M0.now = b ∧ .main r .recv ∉ post := by
    refine runs_induct (P := fun acts M => ∀ (r : Nat) (ρ : SysRun), M.runs[r]? = some ρ → ∀ b, (ρ.pc = .finishing b ∨
      ∃ res, (ρ.pc = .completing res ∨ ρ.pc = .returned res) ∧ res.completedAt = some b) →
      ∃ pre post M0, acts = pre ++ .main r .recv :: post ∧ SysReach pre M0 ∧ M0.now = b ∧ .main r .recv ∉ post) ?_ ?_ h
    · intro r ρ hr
      simp at hr
    · intro acts a M M' hreach ih hs r ρ hr b hpc
      have ext : (∃ pre post M0, acts = pre ++ .main r .recv :: post ∧ SysReach pre M0 ∧ M0.now = b ∧ .main r .recv ∉ post) →
          a ≠ .main r .recv →
          ∃ pre post M0, acts ++ [a] = pre ++ .main r .recv :: post ∧ SysReach pre M0 ∧ M0.now = b ∧ .main r .recv ∉ post := by
        rintro ⟨pre, post, M0, rfl, h1, h2, h3⟩ hne
        exact ⟨pre, post ++ [a], M0, by simp, h1, h2, by simp [h3, Ne.symm hne]⟩
      rcases sys_step_cases hs with ⟨wf, rfl, rfl⟩ | ⟨n, c, ρ₁, ρ₂, rfl, hρ, hm, rfl⟩ |
        ⟨n, i, c, ρ₁, t, g', ρ₂, rfl, hρ, ht, hm, rfl⟩ | ⟨n, rfl, rfl⟩ | ⟨j, x, rfl, rfl⟩
      · simp only [List.getElem?_append] at hr
        split at hr
        · exact ext (ih r ρ hr b hpc) (by simp)
        · obtain rfl := List.mem_singleton.1 (List.mem_of_getElem? hr)
          simp at hpc
      · simp only [List.getElem?_set] at hr
        split at hr
        · rename_i he
          subst he
          simp only [(List.getElem?_eq_some_iff.1 hρ).1, if_true, Option.some.injEq] at hr
          subst hr
          cases c <;> simp only [SysRun.main] at hm
          case check c =>
            split at hm
            · split at hm <;> cases hm
              · simp [skippedWfResult] at hpc
              · simp at hpc
            · cases hm
          case spawn =>
            split at hm
            · cases hm; simp at hpc
            · cases hm; simp at hpc
            · cases hm
          case recv =>
            split at hm
            · rename_i hl _
              cases hm
              unfold SysRun.handle at hpc
              simp only at hpc
              split at hpc
              · simp at hpc
                exact ⟨acts, [], M, rfl, hreach, hpc, by simp⟩
              · exfalso
                unfold SysRun.rescan at hpc
                rw [foldl_runJob_tasks] at hpc
                simp [SysRun.book, hl] at hpc
            · cases hm
          case announce =>
            split at hm <;> cases hm
            rename_i b' hb'
            simp at hpc
            subst hpc
            exact ext (ih n ρ₁ hρ _ (.inl hb')) (by simp)
          case complete =>
            split at hm <;> cases hm
            rename_i res hres
            simp at hpc
            exact ext (ih n ρ₁ hρ _ (.inr ⟨_, .inl hres, hpc⟩)) (by simp)
        · rename_i hne
          exact ext (ih r ρ hr b hpc) (by simp [hne])
      · simp only [List.getElem?_set] at hr
        split at hr
        · rename_i he
          subst he
          simp only [(List.getElem?_eq_some_iff.1 hρ).1, if_true, Option.some.injEq] at hr
          subst hr
          obtain ⟨_, _, _, _, _, f5, _⟩ := taskStep_frame hm
          rw [f5] at hpc
          exact ext (ih n ρ₁ hρ b hpc) (by simp)
        · exact ext (ih r ρ hr b hpc) (by simp)
      · exact ext (ih r ρ hr b hpc) (by simp)
      · exact ext (ih r ρ hr b hpc) (by simp)
  exact key r ρ hr b (.inr ⟨res, .inr hp, hb⟩)

/-- **C81** The start stamp of a job is the time at which its condition was checked, and its end stamp the time at which it
had no more steps to run. -/
theorem C81_job_clock (pre post : List SysAct) (r i : Nat) (a : TaskAct) (M0 M : Sys) (h0 : SysReach pre M0)
    (h : SysReach (pre ++ .task r i a :: post) M) (t : SysTask) (ht : taskAt M r i = some t) (jr : JobRunResult)
    (ha : SysTask.answer t = some jr) (hs : jr.state ≠ .skipped) :
    ((∃ b, a = .check b) → jr.startedAt = some M0.now) ∧ (a = .finishJob → jr.completedAt = some M0.now) := by
  obtain ⟨M1, hstep, hrest⟩ := split_reach h0 h
  obtain ⟨ρ, u, u', hρ, hu, hu', hm, g, ρ', hts, hρ'⟩ := task_act hstep
  have hph := answer_phase ha
  -- a job with an answer has stamps unless skipped
  have hown : ∃ lo, JobStamps lo M.now jr := by
    obtain ⟨ρ, hρ, htt⟩ := Option.bind_eq_some_iff.1 ht
    obtain ⟨lo, _, _, h3, _⟩ := (runTimes_reach h r ρ hρ).tasks i t htt
    refine ⟨lo, ?_⟩
    unfold SysTask.answer at ha
    split at ha
    · rename_i q hpc; cases ha; rw [hpc] at h3; exact h3
    · rename_i q hpc; cases ha; rw [hpc] at h3; exact h3
    · cases ha
  obtain ⟨lo, hown⟩ := hown
  have hsome : jr.startedAt ≠ none := by
    intro hn
    rcases hown.own with ⟨hsk, _⟩ | ⟨_, x, y, hx, _⟩
    · exact hs hsk
    · rw [hn] at hx; cases hx
  constructor
  · rintro ⟨b, rfl⟩
    let Q : SysTask → Prop := fun t => match t.pc.phase with
      | .fresh => False
      | .done r => r.startedAt = none ∨ r.startedAt = some M0.now
      | .dead => True
      | _ => t.startedAt = M0.now
    have hQ1 : Q u' := by
      simp only [Sys.taskStep, SysTask.step] at hts
      split at hts
      · rename_i hpc
        split at hts
        · simp at hts
          obtain ⟨rfl, rfl⟩ := hts
          have : u' = u.emitThen [.jobState u.job.id .skipped] (.finished (skippedJobResult u.job.id)) := by
            rw [SysRun.setTask, List.getElem?_set_self (by
              obtain ⟨ρ1, h1, h2⟩ := Option.bind_eq_some_iff.1 hu
              rw [hρ] at h1; cases h1
              exact (List.getElem?_eq_some_iff.1 h2).1)] at hρ'
            exact (Option.some.inj hρ').symm
          subst this
          exact .inl rfl
        · simp at hts
          obtain ⟨rfl, rfl⟩ := hts
          rw [SysRun.setTask, List.getElem?_set_self (by
              obtain ⟨ρ1, h1, h2⟩ := Option.bind_eq_some_iff.1 hu
              rw [hρ] at h1; cases h1
              exact (List.getElem?_eq_some_iff.1 h2).1)] at hρ'
          have := (Option.some.inj hρ').symm
          subst this
          rfl
      · simp at hts
    have hQ : ∀ now t t', Q t → PhaseMove now t t' → Q t' := by
      intro now t t' hq hm
      cases hm with
      | stay h h1 h2 => simp only [Q, h, h1]; exact hq
      | skipped h r h' h1 => simp only [Q, h] at hq
      | begun h => simp only [Q, h] at hq
      | skip h h' h1 => simp only [Q, h, h', h1] at hq ⊢; exact hq
      | step h h' h1 => simp only [Q, h, h', h1] at hq ⊢; exact hq
      | finish h r h' h1 => simp only [Q, h, h', h1] at hq ⊢; exact .inr (by rw [hq])
      | stepDone t0 h h' h1 => simp only [Q, h, h', h1] at hq ⊢; exact hq
      | died t0 h h' => simp only [Q, h']
    obtain ⟨t', ht', hq⟩ := task_persist hQ post hu' hQ1 hrest
    rw [ht] at ht'
    cases ht'
    simp only [Q, hph] at hq
    rcases hq with hq | hq
    · exact absurd hq hsome
    · exact hq
  · rintro rfl
    let Q : SysTask → Prop := fun t => ∃ r, t.pc.phase = .done r ∧ r.completedAt = some M0.now
    have hQ1 : Q u' := by
      simp only [Sys.taskStep, SysTask.step] at hts
      split at hts
      · simp at hts
        obtain ⟨rfl, rfl⟩ := hts
        rw [SysRun.setTask, List.getElem?_set_self (by
            obtain ⟨ρ1, h1, h2⟩ := Option.bind_eq_some_iff.1 hu
            rw [hρ] at h1; cases h1
            exact (List.getElem?_eq_some_iff.1 h2).1)] at hρ'
        have := (Option.some.inj hρ').symm
        subst this
        exact ⟨_, rfl, rfl⟩
      · simp at hts
    have hQ : ∀ now t t', Q t → PhaseMove now t t' → Q t' := by
      rintro now t t' ⟨r, hq, hq'⟩ hm
      cases hm with
      | stay h h1 h2 => exact ⟨r, h.trans hq, hq'⟩
      | skipped h => rw [h] at hq; cases hq
      | begun h => rw [h] at hq; cases hq
      | skip h => rw [h] at hq; cases hq
      | step h => rw [h] at hq; cases hq
      | finish h => rw [h] at hq; cases hq
      | stepDone t0 h => rw [h] at hq; cases hq
      | died t0 h => rw [h] at hq; cases hq
    obtain ⟨t', ht', r', hq, hq'⟩ := task_persist hQ post hu' hQ1 hrest
    rw [ht] at ht'
    cases ht'
    rw [hph] at hq
    cases hq
    exact hq'

/-- **C81** The stamps of the `n`-th step of a job run: its start stamp is the time at which the job went on to it, its end
stamp the time at which its result was added. (`t0`, `t1`: the job run before and after the move `a`; `n` steps are behind it.) -/
theorem C81_step_clock (pre post : List SysAct) (r i : Nat) (a : TaskAct) (M0 M1 M : Sys) (h0 : SysReach pre M0)
    (h1 : SysReach (pre ++ [.task r i a]) M1) (h : SysReach (pre ++ .task r i a :: post) M)
    (t0 t1 t : SysTask) (ht0 : taskAt M0 r i = some t0) (ht1 : taskAt M1 r i = some t1) (ht : taskAt M r i = some t)
    (jr : JobRunResult) (ha : SysTask.answer t = some jr)
    (sr : StepRunResult) (hsr : jr.steps[t0.results.length]? = some sr) (hs : sr.state ≠ .skipped) :
    ((∃ b s, a = .nextStep b s) → sr.startedAt = some M0.now) ∧
    (t1.results.length = t0.results.length + 1 → sr.completedAt = some M0.now) := by
  obtain ⟨M1', hstep, hrest⟩ := split_reach h0 h
  have he : M1' = M1 := by
    obtain ⟨M2, hs2, hr2⟩ := split_reach h0 (post := []) h1
    rw [hstep] at hs2
    simp only [runs, Option.some.injEq] at hr2
    exact (Option.some.inj hs2).trans hr2
  subst he
  rw [answer_steps h ht ha] at hsr
  obtain ⟨ρ, u, u', hρ, hu, hu', hm, g, ρ', hts, hρ'⟩ := task_act hstep
  rw [ht0] at hu
  cases hu
  rw [ht1] at hu'
  cases hu'
  generalize hn : t0.results.length = n at hsr
  -- what is true of the result when it is added stays true
  have persist : ∀ (P : StepRunResult → Prop), (∀ x, x.startedAt = none → P x) →
      (n < t1.results.length → ∃ x, t1.results[n]? = some x ∧ P x) →
      t1.pc.phase ≠ .fresh →
      (t1.results.length ≤ n → t1.results.length = n ∧ ∃ k, t1.pc.phase = .inside k ∧ ∀ x, x.startedAt = some k → P x) → P sr := by
    intro P hnone hadd hfr hin
    let Q : SysTask → Prop := fun t => t.pc.phase ≠ .fresh ∧
      ((∃ x, t.results[n]? = some x ∧ P x) ∨ t.pc.phase = .dead ∧ t.results.length = n ∨
        t.results.length = n ∧ ∃ k, t.pc.phase = .inside k ∧ ∀ x, x.startedAt = some k → P x)
    have hQ : ∀ now t t', Q t → PhaseMove now t t' → Q t' := by
      rintro now t t' ⟨hf, hq⟩ hm
      have app : ∀ {r : StepRunResult} {x}, t.results[n]? = some x → (t.results ++ [r])[n]? = some x := by
        intro r x hx
        rw [List.getElem?_append_left (List.getElem?_eq_some_iff.1 hx).1]
        exact hx
      cases hm with
      | stay h h1 h2 => exact ⟨h ▸ hf, by rw [h2, h]; exact hq⟩
      | skipped h => exact absurd h hf
      | begun h => exact absurd h hf
      | skip h h' _ r h2 h3 =>
        refine ⟨by simp [h'], .inl ?_⟩
        rcases hq with ⟨x, hx, hp⟩ | ⟨hd, _⟩ | ⟨_, k, hk, _⟩
        · exact ⟨x, by rw [h2]; exact app hx, hp⟩
        · rw [h] at hd; cases hd
        · rw [h] at hk; cases hk
      | step h h' _ h2 =>
        refine ⟨by simp [h'], .inl ?_⟩
        rcases hq with ⟨x, hx, hp⟩ | ⟨hd, _⟩ | ⟨_, k, hk, _⟩
        · exact ⟨x, by rw [h2]; exact hx, hp⟩
        · rw [h] at hd; cases hd
        · rw [h] at hk; cases hk
      | finish h r h' _ _ _ h2 =>
        refine ⟨by simp [h'], .inl ?_⟩
        rcases hq with ⟨x, hx, hp⟩ | ⟨hd, _⟩ | ⟨_, k, hk, _⟩
        · exact ⟨x, by rw [h2]; exact hx, hp⟩
        · rw [h] at hd; cases hd
        · rw [h] at hk; cases hk
      | stepDone k' h h' _ r h2 h3 h4 =>
        refine ⟨by simp [h'], .inl ?_⟩
        rcases hq with ⟨x, hx, hp⟩ | ⟨hd, _⟩ | ⟨hl, k, hk, hp⟩
        · exact ⟨x, by rw [h2]; exact app hx, hp⟩
        · rw [h] at hd; cases hd
        · rw [h] at hk
          cases hk
          exact ⟨r, by rw [h2, ← hl]; simp, hp r h3⟩
      | died k' h h' h2 =>
        refine ⟨by simp [h'], ?_⟩
        rcases hq with ⟨x, hx, hp⟩ | ⟨hd, _⟩ | ⟨hl, k, hk, hp⟩
        · exact .inl ⟨x, by rw [h2]; exact hx, hp⟩
        · rw [h] at hd; cases hd
        · exact .inr (.inl ⟨h', by rw [h2]; exact hl⟩)
    have hQ1 : Q t1 := by
      refine ⟨hfr, ?_⟩
      by_cases hlt : n < t1.results.length
      · exact .inl (hadd hlt)
      · exact .inr (.inr (hin (by omega)))
    obtain ⟨t', ht', _, hq⟩ := task_persist hQ post ht1 hQ1 hrest
    rw [ht] at ht'
    cases ht'
    rcases hq with ⟨x, hx, hp⟩ | ⟨_, hl⟩ | ⟨hl, _⟩
    · rw [hsr] at hx
      cases hx
      exact hp
    · rw [List.getElem?_eq_none (by omega)] at hsr; cases hsr
    · rw [List.getElem?_eq_none (by omega)] at hsr; cases hsr
  -- only a skipped step has no stamps
  have hstamp : sr.startedAt ≠ none := by
    obtain ⟨ρ, hρ, htt⟩ := Option.bind_eq_some_iff.1 ht
    have := task_always (Q := fun t => ∀ x ∈ t.results, x.startedAt = none → x.state = .skipped) (by simp) (by
      intro now t t' hq hm x hx hnone
      have app : ∀ {r : StepRunResult}, x ∈ t.results ++ [r] → (r.startedAt = none → r.state = .skipped) → x.state = .skipped := by
        intro r hx hr
        rcases List.mem_append.1 hx with hx | hx
        · exact hq x hx hnone
        · obtain rfl := List.mem_singleton.1 hx
          exact hr hnone
      cases hm with
      | stay h h1 h2 => exact hq x (h2 ▸ hx) hnone
      | skipped h r h' _ _ _ h2 => exact hq x (h2 ▸ hx) hnone
      | begun h h' _ h2 => rw [h2] at hx; cases hx
      | skip h h' _ r h2 _ _ h5 => exact app (h2 ▸ hx) fun _ => h5
      | step h h' _ h2 => exact hq x (h2 ▸ hx) hnone
      | finish h r h' _ _ _ h2 => exact hq x (h2 ▸ hx) hnone
      | stepDone k h h' _ r h2 h3 => exact app (h2 ▸ hx) fun hr => by rw [h3] at hr; cases hr
      | died k h h' h2 => exact hq x (h2 ▸ hx) hnone) h r ρ hρ t (List.mem_of_getElem? htt) sr (List.mem_of_getElem? hsr)
    exact fun hn => hs (this hn)
  constructor
  · rintro ⟨b, s, rfl⟩
    have := persist (fun x => x.startedAt = none ∨ x.startedAt = some M0.now) (fun x hx => .inl hx)
    have hc : PhaseMove M0.now t0 t1 ∧ (t1.pc.phase = .inside M0.now ∧ t1.results = t0.results ∨
        ∃ r, t1.pc.phase = .between ∧ t1.results = t0.results ++ [r] ∧ r.startedAt = none) := by
      refine ⟨hm, ?_⟩
      have hi : i < ρ.tasks.length := by
        obtain ⟨ρ1, e1, e2⟩ := Option.bind_eq_some_iff.1 ht0
        rw [hρ] at e1; cases e1
        exact (List.getElem?_eq_some_iff.1 e2).1
      simp only [Sys.taskStep, SysTask.step] at hts
      split at hts
      · split at hts
        all_goals
          simp at hts
          obtain ⟨rfl, rfl⟩ := hts
          rw [SysRun.setTask, List.getElem?_set_self hi] at hρ'
          have := (Option.some.inj hρ').symm
          subst this
        · exact .inr ⟨_, rfl, rfl, rfl⟩
        · exact .inl ⟨rfl, rfl⟩
      · simp at hts
    rcases hc.2 with ⟨h1, h2⟩ | ⟨r, h1, h2, h3⟩
    · rcases this (by rw [h2]; omega) (by simp [h1]) (fun _ => ⟨by rw [h2, hn], _, h1, fun x hx => .inr hx⟩) with hx | hx
      · exact absurd hx hstamp
      · exact hx
    · rcases this (fun _ => ⟨r, by rw [h2, ← hn]; simp, .inl h3⟩) (by simp [h1]) (by rw [h2]; simp; omega) with hx | hx
      · exact absurd hx hstamp
      · exact hx
  · intro hlen
    have := persist (fun x => x.startedAt = none ∨ x.completedAt = some M0.now) (fun x hx => .inl hx)
    have hc : ∃ x, t1.pc.phase = .between ∧ t1.results = t0.results ++ [x] ∧ (x.startedAt = none ∨ x.completedAt = some M0.now) := by
      cases hm with
      | stay h h1 h2 => rw [h2] at hlen; omega
      | skipped h r h' _ _ _ h2 => rw [h2] at hlen; omega
      | begun h h' _ h2 => rw [h2] at hlen; simp at hlen
      | skip h h' _ r h2 h3 => exact ⟨r, h', h2, .inl h3⟩
      | step h h' _ h2 => rw [h2] at hlen; omega
      | finish h r h' _ _ _ h2 => rw [h2] at hlen; omega
      | stepDone k h h' _ r h2 h3 h4 => exact ⟨r, h', h2, .inr h4⟩
      | died k h h' h2 => rw [h2] at hlen; omega
    obtain ⟨x, h1, h2, h3⟩ := hc
    rcases this (fun _ => ⟨x, by rw [h2, ← hn]; simp, h3⟩) (by simp [h1]) (by omega) with hx | hx
    · exact absurd hx hstamp
    · exact hx

/-- The hypotheses are met: `c` runs after `a`; the stamps of the returned result. -/
example : ∃ (M : Sys) (ρ : SysRun) (res : WorkflowRunResult) (jr dr : JobRunResult), SysReach TimingEx.chain M ∧
    M.runs[0]? = some ρ ∧ ρ.pc = .returned res ∧ ρ.wf = TimingEx.chainWf ∧ res.state ≠ .skipped ∧
    ρ.tasks.map (·.key) = ["a", "c"] ∧ res.jobs = [("c", jr), ("a", dr)] ∧
    dr.completedAt = some 2 ∧ jr.startedAt = some 3 ∧ jr.completedAt = some 7 ∧ res.startedAt = some 0 ∧ res.completedAt = some 7 :=
  ⟨SystemEx.after TimingEx.chain, _, _, _, _, rfl, rfl, rfl, rfl, by decide, rfl, rfl, rfl, rfl, rfl, rfl, rfl⟩

example : UniqueJobs TimingEx.chainWf ∧ DependsOn TimingEx.chainWf "c" "a" := ⟨by unfold UniqueJobs; decide, _, List.mem_cons_self, by decide⟩

/-- … and those of the step clock: `c` goes on to its step at 3. -/
example : ∃ (M0 M1 M : Sys) (t0 t1 t : SysTask) (jr : JobRunResult) (sr : StepRunResult), SysReach TimingEx.chainHead M0 ∧
    SysReach (TimingEx.chainHead ++ [SysAct.task 0 1 (.nextStep true (TimingEx.step "c"))]) M1 ∧ SysReach TimingEx.chain M ∧
    taskAt M0 0 1 = some t0 ∧ taskAt M1 0 1 = some t1 ∧ taskAt M 0 1 = some t ∧ SysTask.answer t = some jr ∧
    jr.steps[t0.results.length]? = some sr ∧ sr.state ≠ .skipped ∧ sr.startedAt = some 3 ∧ sr.completedAt = some 7 :=
  ⟨SystemEx.after TimingEx.chainHead, SystemEx.after (TimingEx.chainHead ++ [SysAct.task 0 1 (.nextStep true (TimingEx.step "c"))]),
    SystemEx.after TimingEx.chain, _, _, _, _, _, rfl, rfl, rfl, rfl, rfl, rfl, rfl, rfl, by decide, rfl, rfl⟩

end AstroRun
