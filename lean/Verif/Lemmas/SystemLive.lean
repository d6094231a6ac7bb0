import Verif.Lemmas.SystemReach
import Verif.Props.WorkflowTerm

/-! # The engine: every run can go on -/

namespace AstroRun
open Spec

/-! ## Futures in which the hooks behave -/

/-- Make the hooks of a step leave the job part of ids alone. -/
def StepEnv.clean (e : StepEnv) : StepEnv :=
  e.withBefore fun x => if (e.before x).id.jobId = x.id.jobId then e.before x else x

/-- The same for a job run. -/
def JobEnv.clean (env : JobEnv) : JobEnv :=
  { condition := env.condition, startedAt := env.startedAt, completedAt := env.completedAt,
    step := fun i => (env.step i).clean }

theorem clean_keeps (env : JobEnv) (n : Nat) (x : Step) : ((env.clean.step n).before x).id.jobId = x.id.jobId := by
  simp only [JobEnv.clean, StepEnv.clean, StepEnv.withBefore]
  split
  · assumption
  · rfl

theorem fold_clean (jid : JobId) (acc : JobAcc) (ps : List (Step × StepEnv)) (ho : ∀ p ∈ ps, p.1.id.jobId = jid)
    (hk : ∀ s, Event.runStep s ∈ (ps.foldl JobAcc.step acc).trace → s.id.jobId = jid) :
    (ps.map fun p => (p.1, p.2.clean)).foldl JobAcc.step acc = ps.foldl JobAcc.step acc := by
  induction ps using List.reverseRecOn with
  | nil => rfl
  | append_singleton ps p ih =>
    have hmono : ∀ e, e ∈ (ps.foldl JobAcc.step acc).trace → e ∈ ((ps ++ [p]).foldl JobAcc.step acc).trace := by
      intro e he
      simp only [List.foldl_append, List.foldl_cons, List.foldl_nil, JobAcc.step]
      split
      · exact List.mem_append_left _ he
      · exact List.mem_append_left _ he
    have ih' := ih (fun q hq => ho q (List.mem_append_left _ hq)) (fun s hs => hk s (hmono _ hs))
    simp only [List.map_append, List.map_cons, List.map_nil, List.foldl_append, List.foldl_cons, List.foldl_nil] at ih' hk ⊢
    rw [ih']
    simp only [JobAcc.step] at hk ⊢
    have hc : p.2.clean.condition = p.2.condition := rfl
    rw [hc]
    split
    · rfl
    · rename_i hns
      have hb : (p.2.before p.1).id.jobId = jid := by
        refine hk _ ?_
        rw [if_neg hns]
        refine List.mem_append_right _ ?_
        unfold stepRun
        cases p.2.outcome <;> simp
      have : p.2.clean.before p.1 = p.2.before p.1 := by
        simp only [StepEnv.clean, StepEnv.withBefore]
        rw [if_pos]
        rw [hb, ho p (by simp)]
      have hst : stepRun p.2.clean p.1 = stepRun p.2 p.1 := by
        unfold stepRun
        rw [this]
        rfl
      rw [hst]

theorem jobRun_clean (env : JobEnv) (job : Job) (ho : ∀ s ∈ job.steps, s.id.jobId = job.id)
    (hk : ∀ s, Event.runStep s ∈ (jobRun env job).1 → s.id.jobId = job.id) : jobRun env.clean job = jobRun env job := by
  unfold jobRun at hk ⊢
  have hc : env.clean.condition = env.condition := rfl
  rw [hc]
  split
  · rfl
  · rename_i hns
    have hse : job.stepEnvs env.clean = (job.stepEnvs env).map fun p => (p.1, p.2.clean) := by
      simp [Job.stepEnvs, JobEnv.clean]
    rw [hse, fold_clean job.id]
    · rfl
    · intro p hp
      simp only [Job.stepEnvs, List.mem_map] at hp
      obtain ⟨q, hq, rfl⟩ := hp
      exact ho _ (List.fst_mem_of_mem_zipIdx hq)
    · intro s hs
      refine hk s ?_
      rw [if_neg hns]
      simp only [JobAcc.finish]
      exact List.mem_append_left _ hs

/-! ## Futures that add only configured steps -/

theorem loopAcc_runStep {id : JobId} {ps qs : List (Step × StepEnv)} {s : Step}
    (h : Event.runStep s ∈ (loopAcc id (ps ++ qs)).trace) :
    .runStep s ∈ (loopAcc id ps).trace ∨ ∃ q ∈ qs, s = q.2.before q.1 := by
  induction qs using List.reverseRecOn with
  | nil => left; simpa using h
  | append_singleton qs q ih =>
    rw [← List.append_assoc, loopAcc_snoc] at h
    have h2 : .runStep s ∈ (loopAcc id (ps ++ qs)).trace ∨ s = q.2.before q.1 := by
      unfold JobAcc.step at h
      split at h
      · simp only [List.mem_append, List.mem_singleton] at h
        rcases h with h | h
        · exact .inl h
        · simp at h
      · simp only [List.mem_append] at h
        rcases h with h | h
        · exact .inl h
        · right
          unfold stepRun at h
          cases ho : q.2.outcome <;> simp [ho] at h <;> exact h
    rcases h2 with h2 | h2
    · rcases ih h2 with h3 | ⟨q', hq', h3⟩
      · exact .inl h3
      · exact .inr ⟨q', List.mem_append_left _ hq', h3⟩
    · exact .inr ⟨q, by simp, h2⟩

theorem jobRun_envOf_runStep {job : Job} {ps : List (Step × StepEnv)} (h : ps.map Prod.fst = job.steps) {b : Bool}
    (hb : Matches job.on b) {s : Step} (hs : Event.runStep s ∈ (jobRun (envOf ps b) job).1) :
    .runStep s ∈ (loopAcc job.id ps).trace := by
  have hns : shouldSkip job.on b = false := by
    rw [← Bool.not_eq_true, shouldSkip_iff]; exact not_not_intro hb
  have hse : job.stepEnvs (envOf ps b) = ps := stepEnvs_of job ps h b 0 0
  have hc : (envOf ps b).condition = b := rfl
  simp only [jobRun, hc, hns, hse, Bool.false_eq_true, if_false, JobAcc.finish, List.mem_append] at hs
  rcases hs with hs | hs
  · exact hs
  · simp at hs

/-- The steps a future announces. -/
def OnlyKnown (t : SysTask) (env : JobEnv) : Prop :=
  ∀ s, Event.runStep s ∈ (jobRun env t.job).1 → .runStep s ∈ t.evs ++ t.pc.pend ∨ s ∈ t.job.steps

theorem SysOk.fits_known {t : SysTask} (hok : SysOk t) (hi : t.pc ≠ .init) : ∃ env, Fits env t ∧ OnlyKnown t env := by
  obtain ⟨hp, h2, h3, h4⟩ := hok
  -- at the top of the loop
  have atN : AtNext t.job (t.toJobM 0 none) →
      ∃ env, (t.toJobM 0 none).acc.trace <+: (jobRun env t.job).1 ∧ OnlyKnown t env := by
    rintro ⟨b, ps, a1, a2, a3⟩
    have hl : (ps ++ (t.toJobM 0 none).rest.map fun s => (s, ({} : StepEnv))).map Prod.fst = t.job.steps := by
      simp [← a2, Function.comp_def]
    refine ⟨envOf (ps ++ (t.toJobM 0 none).rest.map fun s => (s, ({} : StepEnv))) b, ?_, ?_⟩
    · rw [a3]
      exact (loopAcc_mono t.job.id ps _).trans (jobRun_envOf hl a1)
    · intro s hs
      rcases loopAcc_runStep (jobRun_envOf_runStep hl a1 hs) with h | ⟨q, hq, rfl⟩
      · left
        have : (t.toJobM 0 none).acc.trace = t.evs ++ t.pc.pend := rfl
        rw [← this, a3]
        exact h
      · right
        simp only [List.mem_map] at hq
        obtain ⟨x, hx, rfl⟩ := hq
        rw [← a2]
        exact List.mem_append_right _ hx
  -- inside a step
  have inS : ∀ evs ext s0 (e : StepEnv), InStep t.job (t.toJobM 0 none) evs → .runStep s0 ∈ evs → (∀ st, e.before st = s0) →
      (∀ st, evs ++ ext <+: (stepRun e st).1) →
      ∃ env, (t.toJobM 0 none).acc.trace ++ ext <+: (jobRun env t.job).1 ∧ OnlyKnown t env := by
    rintro evs ext s0 e ⟨b, ps, st, c, a1, a2, a3, a4⟩ hin hb he
    have hl : (ps ++ [(st, { e with condition := c })] ++ (t.toJobM 0 none).rest.map fun s => (s, ({} : StepEnv))).map Prod.fst =
        t.job.steps := by
      simp [← a2, Function.comp_def]
    have h5 : (t.toJobM 0 none).acc.trace ++ ext <+: (loopAcc t.job.id (ps ++ [(st, { e with condition := c })])).trace := by
      rw [a4, loopAcc_snoc]
      simp only [JobAcc.step, a3, Bool.false_eq_true, if_false]
      have : stepRun { e with condition := c } st = stepRun e st := rfl
      rw [this, List.append_assoc]
      exact (List.prefix_append_right_inj _).2 (he st)
    generalize hcur : (st, { e with condition := c }) = cur at hl h5
    generalize hrest : ((t.toJobM 0 none).rest.map fun s => (s, ({} : StepEnv))) = rest at hl
    refine ⟨envOf (ps ++ [cur] ++ rest) b,
      h5.trans ((loopAcc_mono t.job.id (ps ++ [cur]) rest).trans (jobRun_envOf hl a1)), ?_⟩
    intro s hs
    have htr : (t.toJobM 0 none).acc.trace = t.evs ++ t.pc.pend := rfl
    have hev : ∀ x ∈ evs, x ∈ t.evs ++ t.pc.pend := by
      intro x hx
      rw [← htr, a4]
      exact List.mem_append_right _ hx
    have hold : ∀ x ∈ (loopAcc t.job.id ps).trace, x ∈ t.evs ++ t.pc.pend := by
      intro x hx
      rw [← htr, a4]
      exact List.mem_append_left _ hx
    rcases loopAcc_runStep (jobRun_envOf_runStep hl a1 hs) with h | ⟨q, hq, rfl⟩
    · rcases loopAcc_runStep h with h | ⟨q, hq, rfl⟩
      · exact .inl (hold _ h)
      · simp only [List.mem_singleton] at hq
        subst hq
        subst hcur
        left
        simp only [hb]
        exact hev _ hin
    · right
      subst hrest
      simp only [List.mem_map] at hq
      obtain ⟨x, hx, rfl⟩ := hq
      rw [← a2]
      exact List.mem_append_right _ (List.mem_cons_of_mem _ hx)
  have core : ∀ k : SysPc, t.pc.toJobPc = k.toJobPc → k ≠ .init → (∀ es k', k ≠ .emitting es k') → (∀ s, k ≠ .panicked s) →
      ∃ env, (t.toJobM 0 none).acc.trace <+: (jobRun env t.job).1 ∧
        (∀ r, k = .finished r ∨ k = .sent r → jobRun env t.job = ((t.toJobM 0 none).acc.trace, r)) ∧ OnlyKnown t env := by
    intro k hk n1 n2 n3
    have hpk : (t.toJobM 0 none).pc = k.toJobPc := hk
    unfold PcInv at hp
    rw [hpk] at hp
    have fin : ∀ r, (∃ env, jobRun env t.job = ((t.toJobM 0 none).acc.trace, r)) →
        ∃ env, (t.toJobM 0 none).acc.trace <+: (jobRun env t.job).1 ∧
          jobRun env t.job = ((t.toJobM 0 none).acc.trace, r) ∧ OnlyKnown t env := by
      rintro r ⟨env, h⟩
      refine ⟨env, by rw [h], h, ?_⟩
      intro s hs
      rw [h] at hs
      exact .inl hs
    cases k with
    | init => exact absurd rfl n1
    | emitting es k => exact absurd rfl (n2 _ _)
    | panicked s => exact absurd rfl (n3 _)
    | next =>
      obtain ⟨env, h, h'⟩ := atN hp
      exact ⟨env, h, by simp, h'⟩
    | queued s t0 =>
      obtain ⟨env, h, h'⟩ := inS _ [] s { before := fun _ => s, outcome := .refused default } hp (by simp) (fun _ => rfl)
        (fun st => by simp [stepRun])
      exact ⟨env, by simpa using h, by simp, h'⟩
    | calling s t0 ref =>
      obtain ⟨env, h, h'⟩ := inS _ [] s { before := fun _ => s, outcome := .refused default } hp.1 (by simp) (fun _ => rfl)
        (fun st => by simp [stepRun])
      exact ⟨env, by simpa using h, by simp, h'⟩
    | handling s t0 ref =>
      obtain ⟨env, h, h'⟩ := inS _ [] s { before := fun _ => s, outcome := .ended (t.stream.logs.take t.stream.index) .succeeded }
        hp.1 (by simp) (fun _ => rfl) (fun st => by simp [stepRun, SysTask.toJobM])
      exact ⟨env, by simpa using h, by simp, h'⟩
    | select s t0 d ref =>
      obtain ⟨env, h, h'⟩ := inS _ [] s { before := fun _ => s, outcome := .ended (t.stream.logs.take t.stream.index) .succeeded }
        hp.1 (by simp) (fun _ => rfl) (fun st => by simp [stepRun, SysTask.toJobM])
      exact ⟨env, by simpa using h, by simp, h'⟩
    | finished r =>
      obtain ⟨env, h, h', h''⟩ := fin r hp
      refine ⟨env, h, ?_, h''⟩
      rintro r' (hr | hr)
      · cases hr; exact h'
      · simp at hr
    | sent r =>
      obtain ⟨env, h, h', h''⟩ := fin r hp
      refine ⟨env, h, ?_, h''⟩
      rintro r' (hr | hr)
      · simp at hr
      · cases hr; exact h'
  cases hpc : t.pc with
  | init => exact absurd hpc hi
  | emitting es k =>
    have hk := h4 _ _ hpc
    obtain ⟨env, a, _, c⟩ := core k (by rw [hpc]; rfl) hk.1 hk.2.1 hk.2.2.2
    exact ⟨env, ⟨(List.prefix_append _ _).trans a, by simp [hpc], by simp [hpc]⟩, c⟩
  | panicked s =>
    obtain ⟨env, h, h'⟩ := inS _ [.runnerRun s.toCommand] s { before := fun _ => s, outcome := .refused default } (h3 s hpc)
      (by simp) (fun _ => rfl) (fun st => by simp [stepRun])
    have he : (t.toJobM 0 none).acc.trace = t.evs := by simp [SysTask.toJobM, hpc, SysPc.pend]
    rw [he] at h
    refine ⟨env, ⟨(List.prefix_append _ _).trans h, by simp [hpc], ?_⟩, h'⟩
    intro s' hs'
    rw [hpc] at hs'
    cases hs'
    exact h
  | _ =>
    obtain ⟨env, a, b, c⟩ := core t.pc rfl hi (by simp [hpc]) (by simp [hpc])
    refine ⟨env, ⟨(List.prefix_append _ _).trans a, ?_, by simp [hpc]⟩, c⟩
    intro r hr
    have := b r hr
    simpa [SysTask.toJobM, hpc, SysPc.pend] using this

/-- The steps announced so far belong to the job. -/
def KeptSteps (t : SysTask) : Prop := ∀ s, Event.runStep s ∈ t.evs ++ t.pc.pend → s.id.jobId = t.job.id

theorem Fits.of_eq {env env' : JobEnv} {t : SysTask} (h : Fits env t) (he : jobRun env' t.job = jobRun env t.job) : Fits env' t :=
  ⟨he ▸ h.evs, fun r hr => he ▸ h.result r hr, fun s hs => he ▸ h.panic s hs⟩

theorem SysOk.fits_clean {t : SysTask} (hok : SysOk t) (hi : t.pc ≠ .init) (hk : KeptSteps t)
    (ho : ∀ s ∈ t.job.steps, s.id.jobId = t.job.id) :
    ∃ env, Fits env t ∧ ∀ n x, ((env.step n).before x).id.jobId = x.id.jobId := by
  obtain ⟨env, hf, hkn⟩ := hok.fits_known hi
  refine ⟨env.clean, hf.of_eq (jobRun_clean env t.job ho ?_), clean_keeps env⟩
  intro s hs
  rcases hkn s hs with h | h
  · exact hk s h
  · exact ho s h

/-! ## Steps keep their job in every schedule whose hooks do -/

theorem KeptSteps.step {t t' : SysTask} {now : Time} {a : TaskAct} (hk : KeptSteps t) (h : t.step now a = some t')
    (ha : ∀ b s, a = .nextStep b s → s.id.jobId = t.job.id) : KeptSteps t' := by
  intro s hs
  have hev : ∀ s, Event.runStep s ∈ t.evs → s.id.jobId = t.job.id := fun s hs => hk s (List.mem_append_left _ hs)
  have hj := (SysTask.step_job h).1
  rw [hj]
  task_cases a h
  all_goals first
    | exact hk s hs
    | (simp [SysTask.emitThen, SysTask.stepDone, SysPc.pend] at hs
       first
         | exact hev s hs
         | (rcases hs with hs | rfl
            · exact hev s hs
            · exact ha _ _ rfl))

theorem KeptSteps.move {g g' : SigMgr} {ρ ρ' : SysRun} {now : Time} {i : Nat} {t : SysTask} {a : TaskAct}
    (hk : KeptSteps t) (h : Sys.taskStep g ρ now i t a = some (g', ρ'))
    (ha : ∀ b s, a = .nextStep b s → s.id.jobId = t.job.id) :
    ∃ t', ρ'.tasks = ρ.tasks.set i t' ∧ KeptSteps t' := by
  unfold Sys.taskStep at h
  split at h
  · split at h
    · rename_i k hpc
      cases h
      refine ⟨_, rfl, ?_⟩
      intro s hs
      exact hk s (by simpa [hpc, SysPc.pend] using hs)
    · rename_i e es k hpc
      cases h
      refine ⟨_, rfl, ?_⟩
      intro s hs
      exact hk s (by simpa [hpc, SysPc.pend] using hs)
    · simp at h
  · split at h
    · rename_i s0 t0 hpc
      split at h <;> cases h <;> refine ⟨_, rfl, ?_⟩ <;> intro s hs <;>
        exact hk s (by simpa [hpc, SysPc.pend] using hs)
    · simp at h
  · split at h
    · rename_i s0 t0 d ref hpc
      split at h
      · split at h
        · cases h
          refine ⟨_, rfl, ?_⟩
          intro s hs
          exact hk s (by simpa [hpc, SysPc.pend] using hs)
        · simp at h
      · simp at h
    · simp at h
  · split at h
    · rename_i r hpc
      split at h
      · cases h
        refine ⟨_, rfl, ?_⟩
        intro s hs
        exact hk s (by simpa [hpc, SysPc.pend] using hs)
      · split at h
        · cases h
          refine ⟨_, rfl, ?_⟩
          intro s hs
          exact hk s (by simpa [hpc, SysPc.pend] using hs)
        · simp at h
    · simp at h
  · cases hs : t.step now a with
    | none => simp [hs] at h
    | some t' =>
      simp only [hs, Option.map_some, Option.some.injEq, Prod.mk.injEq] at h
      obtain ⟨rfl, rfl⟩ := h
      exact ⟨t', rfl, hk.step hs ha⟩

/-- A main-task move only adds fresh tasks. -/
theorem main_fresh {ρ ρ' : SysRun} {now : Time} {a : MainAct} (h : ρ.main now a = some ρ') :
    ∃ es : List (Id × Job), ρ'.tasks = ρ.tasks ++ es.map fun e => { key := e.1, job := e.2 } := by
  cases a <;> simp only [SysRun.main] at h
  case check b =>
    split at h
    · split at h <;> cases h <;> exact ⟨[], by simp⟩
    · simp at h
  case spawn =>
    split at h
    · cases h; exact ⟨[], by simp⟩
    · rename_i e rest hpc
      cases h
      unfold SysRun.setupJob
      split
      · exact ⟨[e], rfl⟩
      · exact ⟨[], by simp⟩
    · simp at h
  case recv =>
    split at h
    · cases h
      unfold SysRun.handle
      simp only
      split
      · exact ⟨[], by simp [SysRun.book]⟩
      · unfold SysRun.rescan
        rw [foldl_runJob_tasks]
        exact ⟨_, rfl⟩
    · simp at h
  case announce =>
    split at h
    · cases h; exact ⟨[], by simp⟩
    · simp at h
  case complete =>
    split at h
    · cases h; exact ⟨[], by simp⟩
    · simp at h

/-- The cases of a move of the engine. -/
theorem sys_step_cases {M M' : Sys} {a : SysAct} (h : M.step a = some M') :
    (∃ wf, a = .start wf ∧ M' = { M with runs := M.runs ++ [{ wf := wf }] }) ∨
    (∃ r b ρ ρ', a = .main r b ∧ M.runs[r]? = some ρ ∧ ρ.main M.now b = some ρ' ∧ M' = { M with runs := M.runs.set r ρ' }) ∨
    (∃ r i b ρ t g' ρ', a = .task r i b ∧ M.runs[r]? = some ρ ∧ ρ.tasks[i]? = some t ∧
      Sys.taskStep M.mgr ρ M.now i t b = some (g', ρ') ∧ M' = { M with mgr := g', runs := M.runs.set r ρ' }) ∨
    (∃ n, a = .tick n ∧ M' = { M with now := M.now + n }) ∨
    (∃ (j : JobId) (x : List (JobId × Bool)), a = .cancel j ∧ M' = { M with mgr := (M.mgr.cancelJob j).1, answers := x }) := by
  cases a with
  | start wf => simp only [Sys.step, Option.some.injEq] at h; exact .inl ⟨wf, rfl, h.symm⟩
  | main r b =>
    simp only [Sys.step] at h
    cases hρ : M.runs[r]? with
    | none => simp [hρ] at h
    | some ρ =>
      cases hm : ρ.main M.now b with
      | none => simp [hρ, hm] at h
      | some ρ' =>
        simp [hρ, hm] at h
        exact .inr (.inl ⟨r, b, ρ, ρ', rfl, hρ, hm, h.symm⟩)
  | task r i b =>
    simp only [Sys.step] at h
    cases hρ : M.runs[r]? with
    | none => simp [hρ] at h
    | some ρ =>
      cases ht : ρ.tasks[i]? with
      | none => simp [hρ, ht] at h
      | some t =>
        cases hm : Sys.taskStep M.mgr ρ M.now i t b with
        | none => simp [hρ, ht, hm] at h
        | some p =>
          obtain ⟨g', ρ'⟩ := p
          simp [hρ, ht, hm] at h
          exact .inr (.inr (.inl ⟨r, i, b, ρ, t, g', ρ', rfl, hρ, ht, hm, h.symm⟩))
  | tick n => simp only [Sys.step, Option.some.injEq] at h; exact .inr (.inr (.inr (.inl ⟨n, rfl, h.symm⟩)))
  | cancel j => simp only [Sys.step, Option.some.injEq] at h; exact .inr (.inr (.inr (.inr ⟨j, _, rfl, h.symm⟩)))

theorem Spec.HooksKeepJobs.init {acts : List SysAct} {a : SysAct} (h : HooksKeepJobs (acts ++ [a])) : HooksKeepJobs acts := by
  intro pre r i b s post he M hM ρ t h1 h2
  exact h pre r i b s (post ++ [a]) (by rw [he]; simp) M hM ρ t h1 h2

theorem kept_reach {acts : List SysAct} {M : Sys} (hk : HooksKeepJobs acts) (h : SysReach acts M) :
    ∀ (r : Nat) (ρ : SysRun), M.runs[r]? = some ρ → ∀ (i : Nat) (t : SysTask), ρ.tasks[i]? = some t → KeptSteps t := by
  induction acts using List.reverseRecOn generalizing M with
  | nil =>
    simp only [SysReach, runs, Option.some.injEq] at h
    subst h
    simp
  | append_singleton acts a ih =>
    obtain ⟨M0, hm, hs⟩ := runs_snoc.1 h
    have ih := ih hk.init hm
    rcases sys_step_cases hs with ⟨wf, rfl, rfl⟩ | ⟨r, b, ρ, ρ', rfl, hρ, hmain, rfl⟩ |
      ⟨r, i, b, ρ, t, g', ρ', rfl, hρ, ht, htask, rfl⟩ | ⟨n, rfl, rfl⟩ | ⟨j, x, rfl, rfl⟩
    · intro r ρ hρ i t ht
      simp only [List.getElem?_append] at hρ
      split at hρ
      · exact ih r ρ hρ i t ht
      · obtain rfl := List.mem_singleton.1 (List.mem_of_getElem? hρ)
        simp at ht
    · intro n ρ₁ hn i t ht
      simp only [List.getElem?_set] at hn
      split at hn
      · rename_i he
        subst he
        simp only [(List.getElem?_eq_some_iff.1 hρ).1, if_true, Option.some.injEq] at hn
        subst hn
        obtain ⟨es, hes⟩ := main_fresh hmain
        rw [hes, List.getElem?_append] at ht
        split at ht
        · exact ih r ρ hρ i t ht
        · obtain ⟨e, _, rfl⟩ := List.mem_map.1 (List.mem_of_getElem? ht)
          simp [KeptSteps, SysPc.pend]
      · exact ih n ρ₁ hn i t ht
    · intro n ρ₁ hn i' t' ht'
      simp only [List.getElem?_set] at hn
      split at hn
      · rename_i he
        subst he
        simp only [(List.getElem?_eq_some_iff.1 hρ).1, if_true, Option.some.injEq] at hn
        subst hn
        obtain ⟨u, hu, hku⟩ := (ih r ρ hρ i t ht).move htask (by
          rintro b' s rfl
          exact hk acts r i b' s [] rfl M0 hm ρ t hρ ht)
        rw [hu, List.getElem?_set] at ht'
        split at ht'
        · split at ht'
          · cases ht'; exact hku
          · simp at ht'
        · exact ih r ρ hρ i' t' ht'
      · exact ih n ρ₁ hn i' t' ht'
    · exact ih
    · exact ih

/-! ## A run that has not returned can move -/

/-- A move that brings the task nearer to its end. -/
def coopAct (t : SysTask) : Option TaskAct :=
  match t.pc with
  | .init => some (.check true)
  | .emitting _ _ => some .emit
  | .next =>
    match t.rest with
    | [] => some .finishJob
    | st :: _ => some (.nextStep true st)
  | .queued _ _ => some .call
  | .calling _ _ _ => some (.refuse default)
  | .handling _ _ _ => some .enter
  | .select _ _ _ _ =>
    match (t.stream.poll 0).2 with
    | .pending => some (.endStream .succeeded)
    | _ => some .recv
  | .finished _ => some .send
  | .sent _ | .panicked _ => none

/-- How much a task has to do, at most, when everybody cooperates. -/
def SysTask.weightAt (t : SysTask) : SysPc → Nat
  | .emitting es k => es.length + 1 + t.weightAt k
  | .next => 10 * t.rest.length + 5
  | .queued _ _ => 10 * t.rest.length + 10
  | .calling _ _ _ => 10 * t.rest.length + 9
  | .handling _ _ _ => 10 * t.rest.length + 4 * (t.stream.logs.length - t.stream.index) + (if t.stream.result.isSome then 10 else 11)
  | .select _ _ _ _ => 10 * t.rest.length + 4 * (t.stream.logs.length - t.stream.index) + (if t.stream.result.isSome then 9 else 10)
  | _ => 0

/-- A task of the workflow machine with as many notifications to issue. -/
def weighed (_ : Nat) (t : SysTask) : TaskPc :=
  match t.pc with
  | .init => .spawned
  | .finished r => .sending r
  | .sent _ => .done
  | .panicked _ => .panicked
  | pc => .running (List.replicate (t.weightAt pc) (.runWorkflow default)) default

theorem weighed_new : NewIsSpawned weighed := fun _ _ _ => rfl


/-- Task `i` moves on to `t'`. -/
theorem weighed_dec {ρ : SysRun} {i : Nat} {t t' : SysTask} (ht : ρ.tasks[i]? = some t) (hk : t'.key = t.key)
    (hj : t'.job = t.job) (tr : List (Option Nat × Event)) (chan : List WfMsg)
    (hb : taskB (absRun weighed ρ []) (absTask weighed i t') + (chan.map (msgB (absRun weighed ρ []))).sum ≤
      taskB (absRun weighed ρ []) (absTask weighed i t) + (ρ.chan.map (msgB (absRun weighed ρ []))).sum)
    (hcd : taskC (absTask weighed i t') < taskC (absTask weighed i t) ∨
      (taskC (absTask weighed i t') = taskC (absTask weighed i t) ∧ taskD (absTask weighed i t') < taskD (absTask weighed i t))) :
    LexLt (wfMeasure (absRun weighed { ρ.setTask i t' with trace := tr, chan := chan } [])) (wfMeasure (absRun weighed ρ [])) := by
  have h := absRun_setTask (F := weighed) (reg := []) ht hk hj
  have he : absRun weighed { ρ.setTask i t' with trace := tr, chan := chan } [] =
      { (absRun weighed ρ []).setTask i (weighed i t') with registry := [], trace := tr, chan := chan } := by
    rw [← h]; rfl
  have ht' : (absRun weighed ρ []).tasks[i]? = some (absTask weighed i t) := by rw [absRun_getElem?, ht]; rfl
  rw [he]
  have hx : ({ absTask weighed i t with pc := weighed i t' } : WfTask) = absTask weighed i t' := by
    simp [absTask, hk, hj]
  refine measure_setTask ht' _ _ _ _ ?_ ?_
  · rw [hx]; exact hb
  · rw [hx]; exact hcd

/-- Weights of tasks: first, not begun; second, what is left to do. -/
def SysTask.load (t : SysTask) : Nat × Nat :=
  match t.pc with
  | .init => (1, 0)
  | .finished _ => (0, 1)
  | .sent _ => (0, 0)
  | .panicked _ => (0, 0)
  | pc => (0, t.weightAt pc + 2)

theorem load_spec (i : Nat) (t : SysTask) : taskC (absTask weighed i t) = t.load.1 ∧ taskD (absTask weighed i t) = t.load.2 := by
  unfold absTask weighed SysTask.load taskC taskD
  cases t.pc <;> simp

theorem taskB_le (ρ : SysRun) (i : Nat) {t t' : SysTask} (hk : t'.key = t.key) (h : ∀ r, t.pc ≠ .sent r) (h' : ∀ s, t.pc ≠ .panicked s) :
    taskB (absRun weighed ρ []) (absTask weighed i t') ≤ taskB (absRun weighed ρ []) (absTask weighed i t) := by
  unfold taskB absTask weighed
  cases hp : t.pc with
  | sent r => exact absurd hp (h r)
  | panicked s => exact absurd hp (h' s)
  | _ => cases t'.pc <;> simp [hk]

/-- `t'` has less to do. -/
def Lighter (t' t : SysTask) : Prop := t'.load.1 < t.load.1 ∨ t'.load.1 = t.load.1 ∧ t'.load.2 < t.load.2

theorem weighed_move {ρ : SysRun} {i : Nat} {t t' : SysTask} (ht : ρ.tasks[i]? = some t) (hk : t'.key = t.key)
    (hj : t'.job = t.job) (tr : List (Option Nat × Event)) (h : ∀ r, t.pc ≠ .sent r) (h' : ∀ s, t.pc ≠ .panicked s)
    (hl : Lighter t' t) :
    LexLt (wfMeasure (absRun weighed { ρ.setTask i t' with trace := tr } [])) (wfMeasure (absRun weighed ρ [])) := by
  refine weighed_dec ht hk hj tr ρ.chan ?_ ?_
  · have := taskB_le ρ i hk h h'
    omega
  · rw [(load_spec i t).1, (load_spec i t).2, (load_spec i t').1, (load_spec i t').2]
    exact hl

/-- A cooperative move of a task by itself. -/
theorem coop_step {t : SysTask} {a : TaskAct} (now : Time) (hok : SysOk t) (ha : coopAct t = some a)
    (h1 : a ≠ .emit) (h2 : a ≠ .call) (h3 : a ≠ .send) : ∃ t', t.step now a = some t' ∧ Lighter t' t := by
  unfold coopAct at ha
  cases hpc : t.pc with
  | init =>
    simp only [hpc, Option.some.injEq] at ha
    subst ha
    simp only [SysTask.step, hpc]
    split
    · exact ⟨_, rfl, .inl (by simp [SysTask.load, SysTask.emitThen, hpc])⟩
    · exact ⟨_, rfl, .inl (by simp [SysTask.load, SysTask.emitThen, hpc])⟩
  | emitting es k => simp only [hpc, Option.some.injEq] at ha; exact absurd ha.symm h1
  | queued s t0 => simp only [hpc, Option.some.injEq] at ha; exact absurd ha.symm h2
  | finished r => simp only [hpc, Option.some.injEq] at ha; exact absurd ha.symm h3
  | sent r => simp [hpc] at ha
  | panicked s => simp [hpc] at ha
  | next =>
    simp only [hpc] at ha
    cases hr : t.rest with
    | nil =>
      simp only [hr, Option.some.injEq] at ha
      subst ha
      simp only [SysTask.step, hpc, hr]
      exact ⟨_, rfl, .inr (by simp [SysTask.load, SysTask.emitThen, SysTask.weightAt, hpc, hr])⟩
    | cons st rest =>
      simp only [hr, Option.some.injEq] at ha
      subst ha
      simp only [SysTask.step, hpc, hr]
      split
      · exact ⟨_, rfl, .inr (by simp [SysTask.load, SysTask.emitThen, SysTask.weightAt, hpc, hr]; omega)⟩
      · exact ⟨_, rfl, .inr (by simp [SysTask.load, SysTask.emitThen, SysTask.weightAt, hpc, hr]; omega)⟩
  | calling s t0 ref =>
    simp only [hpc, Option.some.injEq] at ha
    subst ha
    simp only [SysTask.step, hpc]
    exact ⟨_, rfl, .inr (by simp [SysTask.load, SysTask.emitThen, SysTask.stepDone, SysTask.weightAt, hpc]; omega)⟩
  | handling s t0 ref =>
    simp only [hpc, Option.some.injEq] at ha
    subst ha
    simp only [SysTask.step, hpc]
    refine ⟨_, rfl, .inr ?_⟩
    simp only [SysTask.load, SysTask.weightAt, hpc, true_and]
    split <;> omega
  | select s t0 d ref =>
    simp only [hpc] at ha
    have hidx : t.stream.index ≤ t.stream.logs.length := by
      have := hok.1
      unfold PcInv at this
      rw [show (t.toJobM 0 none).pc = .select s t0 d by simp [SysTask.toJobM, hpc, SysPc.toJobPc]] at this
      exact this.2
    cases hl : t.stream.logs[t.stream.index]? with
    | some l =>
      have hp : t.stream.poll 0 = ({ { t.stream with waker := some 0 } with index := t.stream.index + 1 }, .item l) := by
        simp [StreamState.poll, hl]
      simp only [hp, Option.some.injEq] at ha
      subst ha
      simp only [SysTask.step, hpc, hp]
      refine ⟨_, rfl, .inr ?_⟩
      have := (List.getElem?_eq_some_iff.1 hl).1
      simp only [SysTask.load, SysTask.weightAt, SysTask.emitThen, hpc, List.length_singleton, true_and]
      split <;> omega
    | none =>
      by_cases hres : t.stream.result.isSome
      · have hp : t.stream.poll 0 = ({ t.stream with waker := some 0 }, .eos) := by
          simp [StreamState.poll, hl, hres]
        simp only [hp, Option.some.injEq] at ha
        subst ha
        obtain ⟨res, hr⟩ := Option.isSome_iff_exists.1 hres
        simp only [SysTask.step, hpc, hp, hr]
        exact ⟨_, rfl, .inr (by simp [SysTask.load, SysTask.emitThen, SysTask.stepDone, SysTask.weightAt, hpc, hr]; omega)⟩
      · have hp : t.stream.poll 0 = ({ t.stream with waker := some 0 }, .pending) := by
          simp [StreamState.poll, hl, hres]
        simp only [hp, Option.some.injEq] at ha
        subst ha
        simp only [SysTask.step, hpc, SysPc.runnerActive, if_true]
        refine ⟨_, rfl, .inr ?_⟩
        have hn : t.stream.result = none := by simpa using hres
        simp [SysTask.load, SysTask.weightAt, hpc, StreamState.endSeq, StreamState.isEnded, StreamState.endWrite, hn]

/-- A cooperative move is possible and brings the run nearer to its end. -/
theorem coop_move {g : SigMgr} {ρ : SysRun} {now : Time} {i : Nat} {t : SysTask} {a : TaskAct} (hok : SysOk t)
    (ht : ρ.tasks[i]? = some t) (ha : coopAct t = some a)
    (hs : a = .send → (∀ res, ρ.pc ≠ .returned res) → ρ.chan.length < chanCap) :
    ∃ g' ρ', Sys.taskStep g ρ now i t a = some (g', ρ') ∧
      LexLt (wfMeasure (absRun weighed ρ' [])) (wfMeasure (absRun weighed ρ [])) := by
  have n1 : ∀ r, t.pc ≠ .sent r := by intro r h; simp [coopAct, h] at ha
  have n2 : ∀ s, t.pc ≠ .panicked s := by intro r h; simp [coopAct, h] at ha
  by_cases h1 : a = .emit
  · subst h1
    have : ∃ es k, t.pc = .emitting es k := by
      unfold coopAct at ha
      cases hpc : t.pc with
      | emitting es k => exact ⟨_, _, rfl⟩
      | next => cases hr : t.rest <;> simp [hpc, hr] at ha
      | select s t0 d ref => cases hr : (t.stream.poll 0).2 <;> simp [hpc, hr] at ha
      | _ => simp [hpc] at ha
    obtain ⟨es, k, hpc⟩ := this
    obtain ⟨k1, k2, k3, k4⟩ := hok.2.2.2 _ _ hpc
    cases es with
    | nil =>
      refine ⟨g, _, by simp only [Sys.taskStep, hpc]; rfl, ?_⟩
      refine weighed_move ht (t' := { t with pc := k }) rfl rfl ρ.trace n1 n2 (.inr ?_)
      cases k with
      | init => exact absurd rfl k1
      | emitting es k => exact absurd rfl (k2 _ _)
      | sent r => exact absurd rfl (k3 _)
      | panicked s => exact absurd rfl (k4 _)
      | _ => simp [SysTask.load, SysTask.weightAt, hpc]
    | cons e es =>
      refine ⟨_, _, by simp only [Sys.taskStep, hpc]; rfl, ?_⟩
      refine weighed_move ht (t' := { t with pc := .emitting es k, evs := t.evs ++ [e] }) rfl rfl _ n1 n2 (.inr ?_)
      have : ∀ (u : SysTask), u.rest = t.rest → u.stream = t.stream → ∀ k, u.weightAt k = t.weightAt k := by
        intro u h1 h2 k
        induction k <;> simp_all [SysTask.weightAt]
      have hw := this { t with pc := .emitting es k, evs := t.evs ++ [e] } rfl rfl k
      simp only [SysTask.load, SysTask.weightAt, hpc, List.length_cons, true_and, hw]
      omega
  by_cases h2 : a = .call
  · subst h2
    have : ∃ s t0, t.pc = .queued s t0 := by
      unfold coopAct at ha
      cases hpc : t.pc with
      | queued es k => exact ⟨_, _, rfl⟩
      | next => cases hr : t.rest <;> simp [hpc, hr] at ha
      | select s t0 d ref => cases hr : (t.stream.poll 0).2 <;> simp [hpc, hr] at ha
      | _ => simp [hpc] at ha
    obtain ⟨s, t0, hpc⟩ := this
    cases hg : g.getSignal s.id.jobId with
    | some ref =>
      refine ⟨_, _, by simp only [Sys.taskStep, hpc, hg]; rfl, ?_⟩
      refine weighed_move ht (t' := { t with pc := .calling s t0 ref, sig := {}, stream := {}, evs := t.evs ++ [.runnerRun s.toCommand] })
        rfl rfl _ n1 n2 (.inr ?_)
      simp [SysTask.load, SysTask.weightAt, hpc]
    | none =>
      refine ⟨_, _, by simp only [Sys.taskStep, hpc, hg]; rfl, ?_⟩
      refine weighed_move ht (t' := { t with pc := .panicked s }) rfl rfl ρ.trace n1 n2 (.inr ?_)
      simp [SysTask.load, SysTask.weightAt, hpc]
  by_cases h3 : a = .send
  · subst h3
    have : ∃ r, t.pc = .finished r := by
      unfold coopAct at ha
      cases hpc : t.pc with
      | finished r => exact ⟨_, rfl⟩
      | next => cases hr : t.rest <;> simp [hpc, hr] at ha
      | select s t0 d ref => cases hr : (t.stream.poll 0).2 <;> simp [hpc, hr] at ha
      | _ => simp [hpc] at ha
    obtain ⟨r, hpc⟩ := this
    have hl : Lighter { t with pc := .sent r } t := .inr (by simp [SysTask.load, hpc])
    have hcap := hs rfl
    cases hp : ρ.pc with
    | returned res =>
      refine ⟨_, _, by simp only [Sys.taskStep, hpc, hp]; rfl, ?_⟩
      exact weighed_move ht (t' := { t with pc := .sent r }) rfl rfl ρ.trace n1 n2 hl
    | _ =>
      have hcap := hcap (by simp [hp])
      refine ⟨_, _, by simp only [Sys.taskStep, hpc, hp, hcap, if_true]; rfl, ?_⟩
      refine weighed_dec ht (t' := { t with pc := .sent r }) rfl rfl ρ.trace (ρ.chan ++ [⟨i, t.key, r⟩]) ?_ ?_
      · simp [taskB, absTask, weighed, hpc, msgB]
        omega
      · rw [(load_spec i t).1, (load_spec i t).2, (load_spec i _).1, (load_spec i _).2]
        exact hl
  · obtain ⟨t', hst, hl⟩ := coop_step now hok ha h1 h2 h3
    have hj := SysTask.step_job hst
    refine ⟨g, ρ.setTask i t', ?_, weighed_move ht hj.2.1 hj.1 ρ.trace n1 n2 hl⟩
    have hnj : a ≠ .jobSignal := by
      rintro rfl
      simp [SysTask.step] at hst
    cases a <;> simp_all [Sys.taskStep]

/-- A run that has not returned can move, or is stuck for good. -/
theorem run_progress (ρ : SysRun) (now : Time) (hr : ∀ res, ρ.pc ≠ .returned res) :
    (∃ a ρ', ρ.main now a = some ρ') ∨
    (∃ (i : Nat) (t : SysTask) (a : TaskAct), ρ.tasks[i]? = some t ∧ coopAct t = some a ∧ (a = .send → ρ.chan.length < chanCap)) ∨
    (ρ.pc = .loop ∧ ρ.chan = [] ∧ ∀ (i : Nat) (t : SysTask), ρ.tasks[i]? = some t → coopAct t = none) := by
  cases hpc : ρ.pc with
  | returned r => exact absurd hpc (hr r)
  | init =>
    left
    refine ⟨.check true, ?_⟩
    simp only [SysRun.main, hpc]
    split <;> exact ⟨_, rfl⟩
  | setup rest =>
    left
    refine ⟨.spawn, ?_⟩
    cases rest <;> simp only [SysRun.main, hpc] <;> exact ⟨_, rfl⟩
  | finishing t => exact .inl ⟨.announce, by simp only [SysRun.main, hpc]; exact ⟨_, rfl⟩⟩
  | completing t => exact .inl ⟨.complete, by simp only [SysRun.main, hpc]; exact ⟨_, rfl⟩⟩
  | loop =>
    cases hc : ρ.chan with
    | cons msg chan => exact .inl ⟨.recv, by simp only [SysRun.main, hpc, hc]; exact ⟨_, rfl⟩⟩
    | nil =>
      right
      by_cases h : ∀ (i : Nat) (t : SysTask), ρ.tasks[i]? = some t → coopAct t = none
      · exact .inr ⟨rfl, rfl, h⟩
      · left
        push Not at h
        obtain ⟨i, t, ht, hco⟩ := h
        obtain ⟨a, ha⟩ := Option.ne_none_iff_exists'.1 hco
        exact ⟨i, t, a, ht, ha, fun _ => by simp [chanCap]⟩

theorem coopAct_none {t : SysTask} (h : coopAct t = none) : (∃ r, t.pc = .sent r) ∨ ∃ s, t.pc = .panicked s := by
  unfold coopAct at h
  cases hpc : t.pc with
  | sent r => exact .inl ⟨_, rfl⟩
  | panicked s => exact .inr ⟨_, rfl⟩
  | next => cases hr : t.rest <;> simp [hpc, hr] at h
  | select s t0 d ref => cases hr : (t.stream.poll 0).2 <;> simp [hpc, hr] at h
  | _ => simp [hpc] at h

theorem absRun_stuck {E : Nat → JobEnv} {ρ : SysRun} {reg : List JobId} (h1 : ρ.pc = .loop) (h2 : ρ.chan = [])
    (h3 : ∀ (i : Nat) (t : SysTask), ρ.tasks[i]? = some t → coopAct t = none) (a : WfAct) :
    (absRun (byEnv E) ρ reg).step a = none := by
  have hpc : (absRun (byEnv E) ρ reg).pc = .loop := h1
  have hch : (absRun (byEnv E) ρ reg).chan = [] := h2
  have ht : ∀ (i : Nat) (u : WfTask), (absRun (byEnv E) ρ reg).tasks[i]? = some u → u.pc = .done ∨ u.pc = .panicked := by
    intro i u hu
    rw [absRun_getElem?] at hu
    obtain ⟨t, h, rfl⟩ := Option.map_eq_some_iff.1 hu
    rcases coopAct_none (h3 i t h) with ⟨r, hr⟩ | ⟨s, hs⟩
    · exact .inl (by simp [absTask, absPc, hr])
    · exact .inr (by simp [absTask, absPc, hs])
  generalize absRun (byEnv E) ρ reg = m at *
  cases a <;> simp only [WfM.step, hpc, hch]
  all_goals
    split
    all_goals first
      | rfl
      | (rename_i hx; exfalso; have := ht _ _ hx; simp at this)

/-- A clean future. -/
theorem RunOk.clean_future {ρ : SysRun} (h : RunOk ρ) (hk : ∀ (i : Nat) (t : SysTask), ρ.tasks[i]? = some t → KeptSteps t)
    (ho : ∀ k j, (k, j) ∈ ρ.wf.jobs → ∀ s ∈ j.steps, s.id.jobId = j.id) :
    ∃ E, Consistent E ρ ∧ ∀ i n x, (((E i).step n).before x).id.jobId = x.id.jobId := by
  have : ∀ i : Nat, ∃ env : JobEnv, (∀ t, ρ.tasks[i]? = some t → t.pc ≠ .init → Fits env t) ∧
      ∀ n x, ((env.step n).before x).id.jobId = x.id.jobId := by
    intro i
    cases ht : ρ.tasks[i]? with
    | none => exact ⟨{}, by simp, fun _ _ => rfl⟩
    | some t =>
      by_cases hi : t.pc = .init
      · exact ⟨{}, fun u hu hn => by cases hu; exact absurd hi hn, fun _ _ => rfl⟩
      · obtain ⟨hok, hj, _⟩ := h.tasks i t ht
        obtain ⟨env, hf, hc⟩ := hok.fits_clean hi (hk i t ht) (ho _ _ hj)
        exact ⟨env, fun u hu _ => by cases hu; exact hf, hc⟩
  choose E hE hE' using this
  exact ⟨E, fun i t ht hn => hE i t ht hn, hE'⟩

/-- A run that cannot move has returned. -/
theorem stuck_returned {acts : List SysAct} {M : Sys} (h : SysReach acts M) (ha : Apart acts) (hk : HooksKeepJobs acts) {r : Nat}
    {ρ : SysRun} (hr : M.runs[r]? = some ρ) (hu : UniqueJobs ρ.wf) (ho : OwnIds ρ.wf) (hd : DepsDefined ρ.wf)
    (hac : Acyclic ρ.wf) (hne : ρ.wf.jobs ≠ []) (h1 : ρ.pc = .loop) (h2 : ρ.chan = [])
    (h3 : ∀ (i : Nat) (t : SysTask), ρ.tasks[i]? = some t → coopAct t = none) : False := by
  have inv := engineOk_reach ha h
  obtain ⟨E, hE, hE'⟩ := (inv.runs r ρ hr).clean_future (kept_reach hk h r ρ hr) ho.2
  obtain ⟨wacts, reg, hreach, _, hbeg⟩ := inv.sim r ρ hr E hE
  have hkeep : HooksKeepJob ρ.wf wacts := by
    intro i env hm k j hj n s hs
    rw [hbeg i env hm, hE']
    exact ho.2 k j hj s (List.mem_of_getElem? hs)
  obtain ⟨res, hres⟩ := (C06_acyclic_returns_partial ρ.wf hu ho hd hac hne wacts _ hreach hkeep).1
    (fun a => absRun_stuck h1 h2 h3 a)
  have : ρ.pc = .returned res := hres
  rw [h1] at this
  cases this

theorem Spec.Apart.snoc {acts : List SysAct} {a : SysAct} (h : Apart acts) (hs : ∀ wf, a ≠ .start wf)
    (hh : ∀ r i b s, a = SysAct.task r i (.nextStep b s) → ∀ wf, (started acts)[r]? = some wf → s.id.workflow = wf.id.id) :
    Apart (acts ++ [a]) := by
  have he : started (acts ++ [a]) = started acts := by
    rw [started_snoc]
    cases a with
    | start wf => exact absurd rfl (hs wf)
    | _ => simp
  refine ⟨he ▸ h.distinct, he ▸ h.own, ?_⟩
  intro r i b s hm wf hwf
  rw [he] at hwf
  rcases List.mem_append.1 hm with hm | hm
  · exact h.hooks r i b s hm wf hwf
  · exact hh r i b s (List.mem_singleton.1 hm).symm wf hwf

theorem Spec.HooksKeepJobs.snoc {acts : List SysAct} {a : SysAct} {M : Sys} (h : HooksKeepJobs acts) (hM : SysReach acts M)
    (hh : ∀ r i b s, a = SysAct.task r i (.nextStep b s) → ∀ (ρ : SysRun) (t : SysTask), M.runs[r]? = some ρ →
      ρ.tasks[i]? = some t → s.id.jobId = t.job.id) :
    HooksKeepJobs (acts ++ [a]) := by
  intro pre r i b s post he M' hM' ρ t h1 h2
  rcases List.eq_nil_or_concat post with rfl | ⟨post', x, rfl⟩
  · obtain ⟨rfl, hx⟩ := List.append_inj' he rfl
    simp only [List.cons.injEq, and_true] at hx
    have : M' = M := by
      unfold SysReach at hM hM'
      rw [hM] at hM'
      exact (Option.some.inj hM').symm
    subst this
    exact hh r i b s hx ρ t h1 h2
  · have : acts ++ [a] = (pre ++ SysAct.task r i (.nextStep b s) :: post') ++ [x] := by simpa using he
    obtain ⟨rfl, _⟩ := List.append_inj' this rfl
    exact h pre r i b s post' rfl M' hM' ρ t h1 h2

/-- Every run can be brought to its return by its own moves, and its job tasks to their end. -/
theorem can_settle (w : Nat × Nat × Nat × Nat × Nat) : ∀ {acts : List SysAct} {M : Sys}, SysReach acts M → Apart acts → HooksKeepJobs acts →
    ∀ {r : Nat} {ρ : SysRun}, M.runs[r]? = some ρ → wfMeasure (absRun weighed ρ []) = w →
    UniqueJobs ρ.wf → OwnIds ρ.wf → DepsDefined ρ.wf → Acyclic ρ.wf → ρ.wf.jobs ≠ [] →
    ∃ more M' ρ' res, (∀ a ∈ more, ofRun r a) ∧ SysReach (acts ++ more) M' ∧ Apart (acts ++ more) ∧ HooksKeepJobs (acts ++ more) ∧
      M'.runs[r]? = some ρ' ∧ ρ'.pc = .returned res ∧
      ∀ (i : Nat) (t : SysTask), ρ'.tasks[i]? = some t → coopAct t = none := by
  induction w using lexLt_wf.induction with
  | _ w ih =>
  intro acts M h ha hk r ρ hr hw hu ho hd hac hne
  by_cases hret : (∃ res, ρ.pc = .returned res) ∧ ∀ (i : Nat) (t : SysTask), ρ.tasks[i]? = some t → coopAct t = none
  · obtain ⟨⟨res, hres⟩, hall⟩ := hret
    exact ⟨[], M, ρ, res, by simp, by simpa using h, by simpa using ha, by simpa using hk, hr, hres, hall⟩
  have inv := engineOk_reach ha h
  have hok := inv.runs r ρ hr
  have hlen := (List.getElem?_eq_some_iff.1 hr).1
  -- one move, then the induction hypothesis
  have go : ∀ (a : SysAct) (M1 : Sys) (ρ1 : SysRun), ofRun r a → M.step a = some M1 → M1.runs[r]? = some ρ1 → ρ1.wf = ρ.wf →
      Apart (acts ++ [a]) → HooksKeepJobs (acts ++ [a]) → LexLt (wfMeasure (absRun weighed ρ1 [])) w →
      ∃ more M' ρ' res, (∀ a ∈ more, ofRun r a) ∧ SysReach (acts ++ more) M' ∧ Apart (acts ++ more) ∧ HooksKeepJobs (acts ++ more) ∧
        M'.runs[r]? = some ρ' ∧ ρ'.pc = .returned res ∧
      ∀ (i : Nat) (t : SysTask), ρ'.tasks[i]? = some t → coopAct t = none := by
    intro a M1 ρ1 hof hs hr1 hwf ha1 hk1 hlt
    have hreach : SysReach (acts ++ [a]) M1 := runs_snoc.2 ⟨M, h, hs⟩
    obtain ⟨more, M', ρ', res, q1, q2, q3, q4, q5, q6⟩ := ih _ hlt hreach ha1 hk1 hr1 rfl (hwf ▸ hu) (hwf ▸ ho) (hwf ▸ hd) (hwf ▸ hac) (hwf ▸ hne)
    refine ⟨a :: more, M', ρ', res, ?_, by simpa using q2, by simpa using q3, by simpa using q4, q5, q6⟩
    intro x hx
    rcases List.mem_cons.1 hx with rfl | hx
    · exact hof
    · exact q1 x hx
  have hprog : (∃ a ρ', ρ.main M.now a = some ρ') ∨
      (∃ (i : Nat) (t : SysTask) (a : TaskAct), ρ.tasks[i]? = some t ∧ coopAct t = some a ∧
        (a = .send → (∀ res, ρ.pc ≠ .returned res) → ρ.chan.length < chanCap)) ∨
      (ρ.pc = .loop ∧ ρ.chan = [] ∧ ∀ (i : Nat) (t : SysTask), ρ.tasks[i]? = some t → coopAct t = none) := by
    by_cases hres : ∃ res, ρ.pc = .returned res
    · refine .inr (.inl ?_)
      apply Classical.byContradiction
      intro hno
      refine hret ⟨hres, fun i t ht => ?_⟩
      cases hb : coopAct t with
      | none => rfl
      | some a => exact absurd ⟨i, t, a, ht, hb, fun _ h => absurd hres.choose_spec (h _)⟩ hno
    · rcases run_progress ρ M.now (fun res h => hres ⟨res, h⟩) with h | ⟨i, t, a, h1, h2, h3⟩ | h
      · exact .inl h
      · exact .inr (.inl ⟨i, t, a, h1, h2, fun h _ => h3 h⟩)
      · exact .inr (.inr h)
  rcases hprog with ⟨a, ρ', hm⟩ | ⟨i, t, a, ht, hco, hsend⟩ | ⟨s1, s2, s3⟩
  · refine go (.main r a) { M with runs := M.runs.set r ρ' } ρ' rfl (by simp [Sys.step, hr, hm]) (by simp [hlen])
      (hok.main hm).2 (ha.snoc (by simp) (by simp)) (hk.snoc h (by simp)) ?_
    rw [← hw]
    exact measure_step (absRun_main weighed_new hm)
  · obtain ⟨g', ρ', hm, hlt⟩ := coop_move (g := M.mgr) (now := M.now) (hok.tasks i t ht).1 ht hco hsend
    -- the hooks leave the step alone
    have hjob := (hok.tasks i t ht).2.1
    have hst : ∀ b s, a = .nextStep b s → s.id.jobId = t.job.id := by
      rintro b s rfl
      unfold coopAct at hco
      cases hpc : t.pc with
      | next =>
        cases hrest : t.rest with
        | nil => simp [hpc, hrest] at hco
        | cons st rest =>
          simp only [hpc, hrest, Option.some.injEq, TaskAct.nextStep.injEq] at hco
          obtain ⟨_, rfl⟩ := hco
          have hp := (hok.tasks i t ht).1.1
          unfold PcInv at hp
          rw [show (t.toJobM 0 none).pc = .next by simp [SysTask.toJobM, hpc, SysPc.toJobPc]] at hp
          obtain ⟨_, ps, _, hps, _⟩ := hp
          refine ho.2 _ _ hjob st ?_
          rw [← hps]
          exact List.mem_append_right _ (by simp [SysTask.toJobM, hrest])
      | select s t0 d ref => cases hx : (t.stream.poll 0).2 <;> simp [hpc, hx] at hco
      | _ => simp [hpc] at hco
    have hwf : (started acts)[r]? = some ρ.wf := by rw [← inv.wfs]; simp [hr]
    have hstw : ∀ b s, a = .nextStep b s → s.id.workflow = ρ.wf.id.id := by
      intro b s hbs
      have := congrArg JobId.workflow (hst b s hbs)
      have hown := ha.own ρ.wf (List.mem_of_getElem? hwf) _ _ hjob
      rw [← hown, ← this]
      rfl
    refine go (.task r i a) { M with mgr := g', runs := M.runs.set r ρ' } ρ' rfl (by simp [Sys.step, hr, ht, hm]) (by simp [hlen])
      (hok.task ht hm hstw).2 (ha.snoc (by simp) ?_) (hk.snoc h ?_) (hw ▸ hlt)
    · intro r' i' b s he wf hwf'
      cases he
      rw [hwf] at hwf'
      cases hwf'
      exact hstw b s rfl
    · intro r' i' b s he ρ₁ t₁ h1 h2
      cases he
      rw [hr] at h1
      cases h1
      rw [ht] at h2
      cases h2
      exact hst b s rfl
  · exact (stuck_returned h ha hk hr hu ho hd hac hne s1 s2 s3).elim

theorem can_return {acts : List SysAct} {M : Sys} (h : SysReach acts M) (ha : Apart acts) (hk : HooksKeepJobs acts) {r : Nat} {ρ : SysRun}
    (hr : M.runs[r]? = some ρ) (hu : UniqueJobs ρ.wf) (ho : OwnIds ρ.wf) (hd : DepsDefined ρ.wf) (hc : Acyclic ρ.wf)
    (hne : ρ.wf.jobs ≠ []) :
    ∃ more M' ρ' res, (∀ a ∈ more, ofRun r a) ∧ SysReach (acts ++ more) M' ∧ Apart (acts ++ more) ∧ HooksKeepJobs (acts ++ more) ∧
      M'.runs[r]? = some ρ' ∧ ρ'.pc = .returned res := by
  obtain ⟨more, M', ρ', res, q1, q2, q3, q4, q5, q6, _⟩ := can_settle _ h ha hk hr rfl hu ho hd hc hne
  exact ⟨more, M', ρ', res, q1, q2, q3, q4, q5, q6⟩

end AstroRun
