import Verif.Spec.System
import Verif.Lemmas.JobMachine
import Verif.Lemmas.Workflow
import Mathlib.Data.List.Induction

/-! # The engine refines the workflow machine -/

namespace AstroRun
open Spec

/-! ## A job task is a job machine -/

/-- Notifications a task is about to issue. -/
def SysPc.pend : SysPc → List Event
  | .emitting es k => es ++ k.pend
  | _ => []

/-- The corresponding place in the job machine. -/
def SysPc.toJobPc : SysPc → JobPc
  | .init => .init
  | .emitting _ k => k.toJobPc
  | .next => .next
  | .queued s t0 => .queued s t0
  | .calling s t0 _ => .calling s t0
  | .handling s t0 _ => .handling s t0
  | .select s t0 d _ => .select s t0 d
  | .finished r => .finished r
  | .sent r => .finished r
  | .panicked _ => .panicked

/-- The task as a job machine whose job signal is `js`. -/
def SysTask.toJobM (t : SysTask) (now : Time) (js : Option SigState) : JobM :=
  { job := t.job, now := now, pc := t.pc.toJobPc, startedAt := t.startedAt, rest := t.rest,
    acc := ⟨t.evs ++ t.pc.pend, t.results, t.state⟩, jobSig := js, sig := t.sig, stream := t.stream }

/-- What is known about a task. -/
def SysOk (t : SysTask) : Prop :=
  PcInv t.job (t.toJobM 0 none) ∧
  (∀ e ∈ t.pc.pend, (∀ id, e = .runJob id → id = t.job.id) ∧ (∀ r, e = .jobCompleted r → r.id = t.job.id) ∧
    ∀ c, e ≠ .runnerRun c) ∧
  (∀ s, t.pc = .panicked s → InStep t.job (t.toJobM 0 none) [.runStep s, .stepState s.id .queued]) ∧
  (∀ es k, t.pc = .emitting es k → k ≠ .init ∧ (∀ es' k', k ≠ .emitting es' k') ∧ (∀ r, k ≠ .sent r) ∧ (∀ s, k ≠ .panicked s))

theorem PcInv_irrel {job : Job} (t : SysTask) (n n' : Time) (js js' : Option SigState) :
    PcInv job (t.toJobM n js) ↔ PcInv job (t.toJobM n' js') := Iff.rfl

/-- A move of the task that touches nothing shared is a move of the job machine. -/
theorem SysTask.step_jobM {t t' : SysTask} {now : Time} {a : TaskAct} (h : t.step now a = some t')
    (hok : SysOk t) : ∃ ja js, (t.toJobM now none).step ja = some (t'.toJobM now js) := by
  obtain ⟨hp, _⟩ := hok
  cases a <;> simp only [SysTask.step] at h
  case check b =>
    split at h
    · rename_i hpc
      have he : t.evs = [] := by
        simpa [PcInv, SysTask.toJobM, hpc, SysPc.toJobPc, SysPc.pend] using hp
      split at h
      · rename_i hs
        cases h
        refine ⟨.check b, none, ?_⟩
        simp [JobM.step, SysTask.toJobM, hpc, SysPc.toJobPc, hs, JobM.emit, SysTask.emitThen, SysPc.pend]
      · rename_i hs
        cases h
        refine ⟨.check b, some {}, ?_⟩
        simp [JobM.step, SysTask.toJobM, hpc, SysPc.toJobPc, hs, SysTask.emitThen, SysPc.pend, he, JobAcc.start]
    · simp at h
  case nextStep b s =>
    split at h
    · rename_i st rest hpc hrest
      split at h
      · rename_i hs
        cases h
        refine ⟨.nextStep b s, none, ?_⟩
        simp [JobM.step, SysTask.toJobM, hpc, hrest, SysPc.toJobPc, hs, SysTask.emitThen, SysPc.pend]
      · rename_i hs
        cases h
        refine ⟨.nextStep b s, none, ?_⟩
        simp [JobM.step, SysTask.toJobM, hpc, hrest, SysPc.toJobPc, hs, SysTask.emitThen, SysPc.pend, JobM.emit]
    · simp at h
  case finishJob =>
    split at h
    · rename_i hpc hrest
      cases h
      refine ⟨.finishJob, none, ?_⟩
      simp [JobM.step, SysTask.toJobM, hpc, hrest, SysPc.toJobPc, SysTask.emitThen, SysPc.pend, JobAcc.finish,
        SysTask.finalResult]
    · simp at h
  case refuse e =>
    split at h
    · rename_i s t0 ref hpc
      cases h
      refine ⟨.refuse e, none, ?_⟩
      simp [JobM.step, SysTask.toJobM, hpc, SysPc.toJobPc, SysTask.stepDone, SysTask.emitThen, SysPc.pend, JobM.stepDone]
    · simp at h
  case accept =>
    split at h
    · rename_i s t0 ref hpc
      cases h
      refine ⟨.accept, none, ?_⟩
      simp [JobM.step, SysTask.toJobM, hpc, SysPc.toJobPc, SysTask.emitThen, SysPc.pend, JobM.emit]
    · simp at h
  case enter =>
    split at h
    · rename_i s t0 ref hpc
      cases h
      refine ⟨.enter, none, ?_⟩
      simp [JobM.step, SysTask.toJobM, hpc, SysPc.toJobPc, SysPc.pend]
    · simp at h
  case timer =>
    split at h
    · rename_i s t0 d ref hpc
      split at h
      · rename_i hd
        cases h
        refine ⟨.timer, none, ?_⟩
        simp [JobM.step, SysTask.toJobM, hpc, SysPc.toJobPc, SysPc.pend, hd]
      · simp at h
    · simp at h
  case recv =>
    split at h
    · rename_i s t0 d ref hpc
      split at h
      · rename_i st' l hpoll
        cases h
        refine ⟨.recv, none, ?_⟩
        simp [JobM.step, SysTask.toJobM, hpc, SysPc.toJobPc, SysPc.pend, SysTask.emitThen, JobM.emit, hpoll]
      · rename_i st' hpoll
        split at h
        · rename_i res hres
          cases h
          refine ⟨.recv, none, ?_⟩
          simp [JobM.step, SysTask.toJobM, hpc, SysPc.toJobPc, SysPc.pend, SysTask.stepDone, SysTask.emitThen,
            JobM.stepDone, hpoll, hres]
        · simp at h
      · simp at h
    · simp at h
  case push l =>
    split at h
    · rename_i ha
      cases h
      refine ⟨.push l, none, ?_⟩
      unfold SysPc.runnerActive at ha
      split at ha <;> first | (exfalso; simp at ha; done) | (rename_i hpc; simp [JobM.step, SysTask.toJobM, hpc, SysPc.toJobPc, SysPc.pend])
    · simp at h
  case endStream r =>
    split at h
    · rename_i ha
      cases h
      refine ⟨.endStream r, none, ?_⟩
      unfold SysPc.runnerActive at ha
      split at ha <;> first | (exfalso; simp at ha; done) | (rename_i hpc; simp [JobM.step, SysTask.toJobM, hpc, SysPc.toJobPc, SysPc.pend])
    · simp at h
  all_goals simp at h

/-- Split a local move into its cases. -/
macro "task_cases" a:ident h:ident : tactic => `(tactic|
  (cases $a:ident <;> simp only [SysTask.step] at $h:ident <;> (repeat' split at $h:ident) <;>
    first
      | (exfalso; simp at $h:ident; done)
      | cases $h:ident))

theorem active_ne {pc : SysPc} (h : pc.runnerActive = true) : pc ≠ .init ∧ (∀ s, pc ≠ .panicked s) ∧
    (∀ r, pc ≠ .finished r) ∧ (∀ r, pc ≠ .sent r) ∧ pc ≠ .next ∧ ∀ s t0, pc ≠ .queued s t0 := by
  unfold SysPc.runnerActive at h
  split at h <;> simp_all

theorem SysTask.step_job {t t' : SysTask} {now : Time} {a : TaskAct} (h : t.step now a = some t') :
    t'.job = t.job ∧ t'.key = t.key ∧ t'.evs = t.evs := by
  task_cases a h <;> exact ⟨rfl, rfl, rfl⟩

theorem SysOk.step {t t' : SysTask} {now : Time} {a : TaskAct} (hok : SysOk t) (h : t.step now a = some t') :
    SysOk t' := by
  obtain ⟨ja, js, hj⟩ := SysTask.step_jobM h hok
  obtain ⟨hp, h2, h3, h4⟩ := hok
  refine ⟨?_, ?_, ?_, ?_⟩
  · have := (PcInv_step (job := t.job) (m := t.toJobM now none) rfl hp hj).1
    rw [(SysTask.step_job h).1]
    exact this
  · task_cases a h <;> simp_all [SysTask.emitThen, SysTask.stepDone, SysPc.pend, SysTask.finalResult]
    all_goals exact fun e he => ⟨(h2 e he).1, (h2 e he).2.1⟩
  · intro s hs
    task_cases a h <;> simp_all [SysTask.emitThen, SysTask.stepDone]
    all_goals (rename_i ha; exact absurd rfl ((active_ne ha).2.1 s))
  · intro es k hk
    task_cases a h <;> simp_all [SysTask.emitThen, SysTask.stepDone]
    all_goals (obtain ⟨_, rfl⟩ := hk; simp)

theorem SysOk.emit {t : SysTask} {e : Event} {es : List Event} {k : SysPc} (hok : SysOk t)
    (hpc : t.pc = .emitting (e :: es) k) : SysOk { t with pc := .emitting es k, evs := t.evs ++ [e] } := by
  obtain ⟨hp, h2, h3, h4⟩ := hok
  refine ⟨?_, ?_, by simp, ?_⟩
  · have : ({ t with pc := .emitting es k, evs := t.evs ++ [e] } : SysTask).toJobM 0 none = t.toJobM 0 none := by
      simp [SysTask.toJobM, hpc, SysPc.toJobPc, SysPc.pend]
    rw [this]; exact hp
  · intro x hx
    refine h2 x ?_
    simp only [hpc, SysPc.pend, List.cons_append] at hx ⊢
    exact List.mem_cons_of_mem _ hx
  · intro es' k' hk
    simp only [SysPc.emitting.injEq] at hk
    obtain ⟨rfl, rfl⟩ := hk
    exact h4 _ _ hpc

theorem SysOk.leave {t : SysTask} {k : SysPc} (hok : SysOk t) (hpc : t.pc = .emitting [] k) : SysOk { t with pc := k } := by
  obtain ⟨hp, h2, h3, h4⟩ := hok
  have hk := h4 _ _ hpc
  refine ⟨?_, ?_, fun s hs => absurd hs (hk.2.2.2 s), fun es k' h => absurd h (hk.2.1 es k')⟩
  · have : ({ t with pc := k } : SysTask).toJobM 0 none = t.toJobM 0 none := by
      simp [SysTask.toJobM, hpc, SysPc.toJobPc, SysPc.pend]
    rw [this]; exact hp
  · intro x hx
    refine h2 x ?_
    simpa only [hpc, SysPc.pend, List.nil_append] using hx

theorem SysOk.called {t : SysTask} {s : Step} {t0 : Time} {ref : Nat} (hok : SysOk t) (hpc : t.pc = .queued s t0) :
    SysOk { t with pc := .calling s t0 ref, sig := {}, stream := {}, evs := t.evs ++ [.runnerRun s.toCommand] } := by
  obtain ⟨hp, h2, h3, h4⟩ := hok
  refine ⟨?_, by simp [SysPc.pend], by simp, by simp⟩
  simp only [PcInv, SysTask.toJobM, hpc, SysPc.toJobPc, SysPc.pend, List.append_nil] at hp ⊢
  obtain ⟨b, ps, st, c, a1, a2, a3, a4⟩ := hp
  refine ⟨⟨b, ps, st, c, a1, a2, a3, ?_⟩, trivial⟩
  simp only [JobAcc.mk.injEq] at a4 ⊢
  exact ⟨by simp [a4.1], a4.2.1, a4.2.2⟩

theorem SysOk.panicked {t : SysTask} {s : Step} {t0 : Time} (hok : SysOk t) (hpc : t.pc = .queued s t0) :
    SysOk { t with pc := .panicked s } := by
  obtain ⟨hp, h2, h3, h4⟩ := hok
  refine ⟨trivial, by simp [SysPc.pend], ?_, by simp⟩
  intro s' hs'
  simp only [SysPc.panicked.injEq] at hs'
  subst hs'
  simp only [PcInv, SysTask.toJobM, hpc, SysPc.toJobPc, SysPc.pend, List.append_nil] at hp ⊢
  exact hp

theorem SysOk.signalled {t : SysTask} {s : Step} {t0 d : Time} {ref : Nat} {g : SigState} (hok : SysOk t)
    (hpc : t.pc = .select s t0 d ref) : SysOk { t with pc := .handling s t0 ref, sig := g } := by
  obtain ⟨hp, h2, h3, h4⟩ := hok
  refine ⟨?_, by simp [SysPc.pend], by simp, by simp⟩
  simp only [PcInv, SysTask.toJobM, hpc, SysPc.toJobPc, SysPc.pend] at hp ⊢
  exact hp

theorem SysOk.sent {t : SysTask} {r : JobRunResult} (hok : SysOk t) (hpc : t.pc = .finished r) :
    SysOk { t with pc := .sent r } := by
  obtain ⟨hp, h2, h3, h4⟩ := hok
  refine ⟨?_, by simp [SysPc.pend], by simp, by simp⟩
  simp only [PcInv, SysTask.toJobM, hpc, SysPc.toJobPc, SysPc.pend] at hp ⊢
  exact hp

theorem SysOk.new (key : Id) (job : Job) : SysOk { key := key, job := job } :=
  ⟨rfl, by simp [SysPc.pend], by simp, by simp⟩

/-! ## Every task can be thought of as running to some end -/

theorem loopAcc_mono (id : JobId) (ps qs : List (Step × StepEnv)) :
    (loopAcc id ps).trace <+: (loopAcc id (ps ++ qs)).trace := by
  induction qs using List.reverseRecOn with
  | nil => simp
  | append_singleton qs q ih =>
    rw [← List.append_assoc, loopAcc_snoc]
    refine ih.trans ?_
    unfold JobAcc.step
    split <;> exact List.prefix_append _ _

/-- The run in which the steps go as `ps` says. -/
def envOf (ps : List (Step × StepEnv)) (b : Bool) : JobEnv :=
  { condition := b, step := fun i => (ps[i]?.map Prod.snd).getD {} }

theorem jobRun_envOf {job : Job} {ps : List (Step × StepEnv)} (h : ps.map Prod.fst = job.steps) {b : Bool}
    (hb : Matches job.on b) : (loopAcc job.id ps).trace <+: (jobRun (envOf ps b) job).1 := by
  have hns : shouldSkip job.on b = false := by
    rw [← Bool.not_eq_true, shouldSkip_iff]; exact not_not_intro hb
  have hse : job.stepEnvs (envOf ps b) = ps := stepEnvs_of job ps h b 0 0
  have hc : (envOf ps b).condition = b := rfl
  simp only [jobRun, hc, hns, hse, Bool.false_eq_true, if_false, JobAcc.finish]
  exact List.prefix_append _ _

theorem atNext_extends {job : Job} {m : JobM} (h : AtNext job m) : ∃ env, m.acc.trace <+: (jobRun env job).1 := by
  obtain ⟨b, ps, h1, h2, h3⟩ := h
  refine ⟨envOf (ps ++ m.rest.map fun s => (s, ({} : StepEnv))) b, ?_⟩
  rw [h3]
  refine (loopAcc_mono job.id ps (m.rest.map fun s => (s, ({} : StepEnv)))).trans (jobRun_envOf ?_ h1)
  simp [← h2, Function.comp_def]

theorem inStep_extends {job : Job} {m : JobM} {evs ext : List Event} (h : InStep job m evs) (e : StepEnv)
    (he : ∀ st, evs ++ ext <+: (stepRun e st).1) : ∃ env, m.acc.trace ++ ext <+: (jobRun env job).1 := by
  obtain ⟨b, ps, st, c, h1, h2, h3, h4⟩ := h
  have h5 : m.acc.trace ++ ext <+: (loopAcc job.id (ps ++ [(st, { e with condition := c })])).trace := by
    rw [h4, loopAcc_snoc]
    simp only [JobAcc.step, h3, Bool.false_eq_true, if_false]
    have : stepRun { e with condition := c } st = stepRun e st := rfl
    rw [this, List.append_assoc]
    exact (List.prefix_append_right_inj _).2 (he st)
  refine ⟨envOf (ps ++ [(st, { e with condition := c })] ++ m.rest.map fun s => (s, ({} : StepEnv))) b, h5.trans ?_⟩
  refine (loopAcc_mono job.id _ (m.rest.map fun s => (s, ({} : StepEnv)))).trans (jobRun_envOf ?_ h1)
  simp [← h2, Function.comp_def]

/-- `env` is a possible future of the task. -/
structure Fits (env : JobEnv) (t : SysTask) : Prop where
  evs : t.evs <+: (jobRun env t.job).1
  result : ∀ r, t.pc = .finished r ∨ t.pc = .sent r → jobRun env t.job = (t.evs, r)
  panic : ∀ s, t.pc = .panicked s → t.evs ++ [.runnerRun s.toCommand] <+: (jobRun env t.job).1

theorem SysOk.fits {t : SysTask} (hok : SysOk t) (hi : t.pc ≠ .init) : ∃ env, Fits env t := by
  obtain ⟨hp, h2, h3, h4⟩ := hok
  have fit : ∀ env, (∀ r, t.pc ≠ .finished r) → (∀ r, t.pc ≠ .sent r) → (∀ s, t.pc ≠ .panicked s) →
      (t.toJobM 0 none).acc.trace <+: (jobRun env t.job).1 → Fits env t := by
    intro env a1 a2 a3 h
    refine ⟨(List.prefix_append _ _).trans h, ?_, fun s hs => absurd hs (a3 s)⟩
    rintro r (hr | hr)
    · exact absurd hr (a1 r)
    · exact absurd hr (a2 r)
  have core : ∀ k : SysPc, t.pc.toJobPc = k.toJobPc → k ≠ .init → (∀ es k', k ≠ .emitting es k') → (∀ s, k ≠ .panicked s) →
      ∃ env, (t.toJobM 0 none).acc.trace <+: (jobRun env t.job).1 ∧
        ∀ r, k = .finished r ∨ k = .sent r → jobRun env t.job = ((t.toJobM 0 none).acc.trace, r) := by
    intro k hk n1 n2 n3
    have hpk : (t.toJobM 0 none).pc = k.toJobPc := hk
    unfold PcInv at hp
    rw [hpk] at hp
    cases k with
    | init => exact absurd rfl n1
    | emitting es k => exact absurd rfl (n2 _ _)
    | panicked s => exact absurd rfl (n3 _)
    | next =>
      obtain ⟨env, h⟩ := atNext_extends hp
      exact ⟨env, h, by simp⟩
    | queued s t0 =>
      obtain ⟨env, h⟩ := inStep_extends (ext := []) hp { before := fun _ => s, outcome := .refused default }
        (fun st => by simp [stepRun])
      exact ⟨env, by simpa using h, by simp⟩
    | calling s t0 ref =>
      obtain ⟨env, h⟩ := inStep_extends (ext := []) hp.1 { before := fun _ => s, outcome := .refused default }
        (fun st => by simp [stepRun])
      exact ⟨env, by simpa using h, by simp⟩
    | handling s t0 ref =>
      obtain ⟨env, h⟩ := inStep_extends (ext := []) hp.1 { before := fun _ => s, outcome := .ended (t.stream.logs.take t.stream.index) .succeeded }
        (fun st => by simp [stepRun, SysTask.toJobM])
      exact ⟨env, by simpa using h, by simp⟩
    | select s t0 d ref =>
      obtain ⟨env, h⟩ := inStep_extends (ext := []) hp.1 { before := fun _ => s, outcome := .ended (t.stream.logs.take t.stream.index) .succeeded }
        (fun st => by simp [stepRun, SysTask.toJobM])
      exact ⟨env, by simpa using h, by simp⟩
    | finished r =>
      obtain ⟨env, h⟩ := hp
      refine ⟨env, by rw [h]; exact List.prefix_rfl, ?_⟩
      rintro r' (hr | hr)
      · cases hr; exact h
      · simp at hr
    | sent r =>
      obtain ⟨env, h⟩ := hp
      refine ⟨env, by rw [h]; exact List.prefix_rfl, ?_⟩
      rintro r' (hr | hr)
      · simp at hr
      · cases hr; exact h
  cases hpc : t.pc with
  | init => exact absurd hpc hi
  | emitting es k =>
    have hk := h4 _ _ hpc
    obtain ⟨env, a, _⟩ := core k (by rw [hpc]; rfl) hk.1 hk.2.1 hk.2.2.2
    exact ⟨env, fit env (by simp [hpc]) (by simp [hpc]) (by simp [hpc]) a⟩
  | panicked s =>
    obtain ⟨env, h⟩ := inStep_extends (ext := [.runnerRun s.toCommand]) (h3 s hpc)
      { before := fun _ => s, outcome := .refused default } (fun st => by simp [stepRun])
    have he : (t.toJobM 0 none).acc.trace = t.evs := by simp [SysTask.toJobM, hpc, SysPc.pend]
    rw [he] at h
    refine ⟨env, (List.prefix_append _ _).trans h, by simp [hpc], ?_⟩
    intro s' hs'
    rw [hpc] at hs'
    cases hs'
    exact h
  | _ =>
    obtain ⟨env, a, b⟩ := core t.pc rfl hi (by simp [hpc]) (by simp [hpc])
    refine ⟨env, (List.prefix_append _ _).trans a, ?_, by simp [hpc]⟩
    intro r hr
    have := b r hr
    simpa [SysTask.toJobM, hpc, SysPc.pend] using this

end AstroRun
