import Verif.Props.SystemAlone

/-! # C104: exactly when `cancel_job` is answered `Ok` in a busy engine -/

namespace AstroRun
open Spec

theorem jobCompleted_not_plain (r : JobRunResult) : ¬ Plain (.jobCompleted r) := by
  intro h
  have := congrArg (fun g : SigMgr => g.getSignal r.id) (h (({} : SigMgr).register r.id))
  simp only [SigMgr.noted, SigMgr.unregister, SigMgr.register, SigMgr.getSignal] at this
  simp [AMap.get?_erase_self, AMap.get?_insert_self] at this

/-- A job run that is over was skipped or has said that it completed. -/
theorem over_said {t : SysTask} {evs : List Event} {pc : SysPc} (h : LifeAt t evs pc) (hp : OverAt pc) :
    (∃ r : JobRunResult, Event.jobCompleted r ∈ evs) ∨ ∀ j, Event.runJob j ∉ evs := by
  have core : ∀ pc evs, LifeAt t evs pc → OverAt pc →
      (∃ r : JobRunResult, Event.jobCompleted r ∈ evs) ∨ ∀ j, Event.runJob j ∉ evs := by
    intro pc
    induction pc with
    | emitting es k ih =>
      intro evs h hp
      rcases ih (evs ++ es) h hp.2 with ⟨r, hr⟩ | hn
      · rcases List.mem_append.1 hr with hr | hr
        · exact .inl ⟨r, hr⟩
        · exact absurd (hp.1 _ hr) (jobCompleted_not_plain r)
      · exact .inr fun j hj => hn j (List.mem_append_left _ hj)
    | finished r =>
      intro evs h hp
      rcases h.2.2.2.2 with h | ⟨_, h⟩
      · exact .inl ⟨r, List.mem_of_getLast? h⟩
      · exact .inr (by simp [h])
    | sent r =>
      intro evs h hp
      rcases h.2.2.2.2 with h | ⟨_, h⟩
      · exact .inl ⟨r, List.mem_of_getLast? h⟩
      · exact .inr (by simp [h])
    | _ => intro evs h hp; simp [OverAt] at hp
  exact core pc evs h hp

theorem completed_last {j : JobId} {evs : List Event} (h : WellOrdered j evs) {r : JobRunResult} (hr : Event.jobCompleted r ∈ evs) :
    jobReports evs ≠ [(j, .inProgress)] := by
  obtain ⟨pre, post, rfl⟩ := List.append_of_mem hr
  obtain ⟨h1, h2, h3, _⟩ := h pre _ post rfl
  obtain ⟨pre', rfl⟩ := List.getLast?_eq_some_iff.1 h2
  intro he
  simp only [jobReports, List.filterMap_append, List.filterMap_cons, List.filterMap_nil] at he
  have : (j, r.state) ∈ [(j, WorkflowState.inProgress)] := by rw [← he]; simp
  simp only [List.mem_singleton, Prod.mk.injEq, true_and] at this
  rw [this] at h3
  cases h3

/-- While the job is active it has not said that it completed. -/
theorem active_not_completed {t : SysTask} {ref : Nat} {evs : List Event} {pc : SysPc} (h : LifeAt t evs pc) (hp : ActiveAt ref pc) :
    ∀ r : JobRunResult, Event.jobCompleted r ∉ evs := by
  have core : ∀ pc evs, LifeAt t evs pc → ActiveAt ref pc → ∀ r : JobRunResult, Event.jobCompleted r ∉ evs := by
    intro pc
    induction pc with
    | emitting es k ih =>
      intro evs h hp r hr
      exact ih (evs ++ es) h hp.2 r (List.mem_append_left _ hr)
    | next => intro evs h hp r hr; exact completed_last h.1 hr h.2.1
    | queued s t0 => intro evs h hp r hr; exact completed_last h.1 hr h.2.1
    | calling s t0 x => intro evs h hp r hr; exact completed_last h.1 hr h.2.1
    | handling s t0 x => intro evs h hp r hr; exact completed_last h.1 hr h.2.1
    | select s t0 d x => intro evs h hp r hr; exact completed_last h.1 hr h.2.1
    | _ => intro evs h hp; simp [ActiveAt] at hp
  exact core pc evs h hp

theorem answersFor_true {j : JobId} {M : Sys} : true ∈ answersFor j M ↔ (j, true) ∈ M.answers := by
  simp [answersFor]

/-- **C104** (the answer) However busy the engine: `cancel_job` for a job that a job run has announced and not yet reported complete
is answered `Ok` exactly the first time; before the announcement and after the report it is answered with an error. -/
theorem C104_cancel_answered (acts : List SysAct) (M : Sys) (h : SysReach acts M) (hk : HooksKeepJobs acts) (r i : Nat) (t : SysTask)
    (ht : taskAt M r i = some t) (hno : NoOther M t.job.id r i) :
    ∃ M' ok, M.step (.cancel t.job.id) = some M' ∧ M'.answers = M.answers ++ [(t.job.id, ok)] ∧
      (ok = true ↔ Event.runJob t.job.id ∈ t.evs ∧ (∀ res : JobRunResult, Event.jobCompleted res ∉ t.evs) ∧
        (t.job.id, true) ∉ M.answers) := by
  obtain ⟨ja, lag, m, sl, hr, hsl, hph, hmv⟩ := alone_reach h hk hno (fun u hu => by rw [ht] at hu; cases hu; rfl)
  have hlife : LifeAt t t.evs t.pc := by
    simp only [taskAt, Option.bind_eq_some_iff] at ht
    obtain ⟨ρ, h1, h2⟩ := ht
    exact (runLife_reach h h1).tasks t (List.mem_of_getElem? h2)
  have hreg : Event.runJob t.job.id ∉ t.evs → sl = none := by
    intro hn
    have := slot_none (r := r) (i := i) h hno (fun u hu => by rw [ht] at hu; cases hu; exact hn)
    match sl, hsl with
    | none, _ => rfl
    | some (ref, c), hsl => simp [Slot, this] at hsl
  obtain ⟨_, _, hlink, _⟩ := allInv_run hr
  have hstep : ∃ M', M.step (.cancel t.job.id) = some M' ∧ M'.answers = M.answers ++ [(t.job.id, (slotCancel sl).2)] := by
    simp only [Sys.step, Option.some.injEq, exists_eq_left']
    rcases (slot_cancel hsl).2 with ⟨h1, h2⟩ | ⟨e, h1, h2⟩ <;> simp only [h1, h2]
  obtain ⟨M', hs1, hs2⟩ := hstep
  refine ⟨M', _, hs1, hs2, ?_⟩
  rw [← answersFor_true]
  have hset : ∀ (ref : Nat) (c : SigState), (slotCancel (some (ref, c))).2 = true ↔ c.signal = none := by
    intro ref c
    simp only [slotCancel, SigState.set]
    cases c.signal <;> simp
  rw [ht] at hph
  generalize hjob : t.job = job at *
  generalize hans : answersFor job.id M = ans at *
  generalize hta : some t = ot at hph
  cases hph with
  | unborn => cases hta
  | init key => cases hta; simp [slotCancel]
  | starting key n b hn hb => cases hta; simp [slotCancel]
  | running t' ref c hj hp =>
    cases hta
    have hsome : Event.runJob job.id ∈ t.evs := by
      by_cases hx : Event.runJob job.id ∈ t.evs
      · exact hx
      · exact absurd (hreg hx) (by simp)
    rw [hset]
    have := (hlink.reg c rfl).2.2.2.1
    exact ⟨fun hc => ⟨hsome, active_not_completed hlife hp, this.1 hc⟩, fun hc => this.2 hc.2.2⟩
  | finishing t' ref c es E tf hj hr hp hes hE hn =>
    cases hta
    have hsome : Event.runJob job.id ∈ t.evs := by
      by_cases hx : Event.runJob job.id ∈ t.evs
      · exact hx
      · exact absurd (hreg hx) (by simp)
    rw [hset]
    have := (hlink.reg c rfl).2.2.2.1
    refine ⟨fun hc => ⟨hsome, ?_, this.1 hc⟩, fun hc => this.2 hc.2.2⟩
    intro res hres
    rw [hp] at hlife
    have ho : WellOrdered t.job.id (t.evs ++ es) := LifeAt.ordered (pc := .finished (t.finalResult tf)) hlife
    have ho' : WellOrdered t.job.id t.evs := fun p e q hq => ho p e (q ++ es) (by simp [hq])
    have hfin : ∃ E', t.evs ++ es = E' ++ [.jobCompleted (t.finalResult tf)] ∧ Event.jobCompleted res ∈ E' := by
      rcases hes with rfl | rfl
      · exact ⟨t.evs ++ [.jobState t.job.id (t.finalResult tf).state], by simp, by simp [hres]⟩
      · exact ⟨t.evs, rfl, hres⟩
    obtain ⟨E', he, hm⟩ := hfin
    obtain ⟨pre, post, rfl⟩ := List.append_of_mem hm
    obtain ⟨_, h2, h3, h4, _⟩ := ho pre (.jobCompleted res) (post ++ [.jobCompleted (t.finalResult tf)]) (by rw [he]; simp)
    obtain ⟨p1, rfl⟩ := List.getLast?_eq_some_iff.1 h2
    obtain ⟨_, g2, g3, g4, _⟩ := ho (p1 ++ [.jobState t.job.id res.state] ++ .jobCompleted res :: post) (.jobCompleted (t.finalResult tf)) [] (by rw [he])
    obtain ⟨p2, hp2⟩ := List.getLast?_eq_some_iff.1 g2
    -- two final reports of the same job
    obtain ⟨_, ⟨hx, _⟩ | ⟨_, hx⟩ | ⟨hx, _⟩⟩ := ho p2 (.jobState t.job.id (t.finalResult tf).state) [.jobCompleted (t.finalResult tf)] (by rw [he, hp2]; simp)
    · subst hx
      have := congrArg List.length hp2
      simp at this
      omega
    · rw [hx] at g3; cases g3
    · have hin : (t.job.id, res.state) ∈ jobReports p2 := by
        have hmem : Event.jobCompleted res ∈ p2 := by
          have : Event.jobCompleted res ∈ p2 ++ [.jobState t.job.id (t.finalResult tf).state] := by rw [← hp2]; simp
          simpa using this
        obtain ⟨a, b, rfl⟩ := List.append_of_mem hmem
        obtain ⟨_, k2, _⟩ := ho a (.jobCompleted res) (b ++ [.jobState t.job.id (t.finalResult tf).state] ++ [.jobCompleted (t.finalResult tf)])
          (by rw [he, hp2]; simp)
        obtain ⟨a', rfl⟩ := List.getLast?_eq_some_iff.1 k2
        simp [jobReports]
      rw [hx] at hin
      simp only [List.mem_singleton, Prod.mk.injEq, true_and] at hin
      rw [hin] at h3
      cases h3
  | over t' hj hp =>
    cases hta
    simp only [slotCancel, Bool.false_eq_true, false_iff, not_and, not_not]
    intro h1 h2
    rcases over_said hlife hp with ⟨r, hr⟩ | hn
    · exact absurd hr (h2 r)
    · exact absurd h1 (hn _)

/-- The hypotheses are met, for a job that has been announced and not been cancelled. -/
example : ∃ (M : Sys) (t : SysTask), SysReach SystemEx.half M ∧ HooksKeepJobs SystemEx.half ∧ taskAt M 1 0 = some t ∧
    NoOther M t.job.id 1 0 ∧ Event.runJob t.job.id ∈ t.evs ∧ (t.job.id, true) ∉ M.answers :=
  ⟨SystemEx.after SystemEx.half, _, rfl, SystemEx.keeps_half, rfl,
    SystemEx.second_only (acts := SystemEx.half) rfl (by decide +kernel), by decide, by decide⟩

end AstroRun
