import Verif.Spec.SystemEx
import Verif.Lemmas.SystemAlone
import Verif.Props.JobMachine
import Verif.Props.SystemLive

/-! # C104: a job run of a busy engine is that job alone -/

namespace AstroRun
open Spec

theorem alone_here {acts : List SysAct} {M : Sys} (h : SysReach acts M) (hk : HooksKeepJobs acts) {r i : Nat} {t : SysTask}
    (ht : taskAt M r i = some t) (hno : NoOther M t.job.id r i) (hidle : ∀ es k, t.pc ≠ .emitting es k) :
    ∃ ja m, JobReach t.job 0 ja m ∧ SameJob M t m ∧ ownMoves ja = jobMoves r i acts ∧
      (∀ ref, ActiveAt ref t.pc → ∃ c, m = { t.toJobM M.now (some c) with answers := answersFor t.job.id M }) := by
  obtain ⟨ja, lag, m, sl, hr, hsl, hph, hmv⟩ := alone_reach h hk hno (fun u hu => by rw [ht] at hu; cases hu; rfl)
  rw [ht] at hph
  refine ⟨ja, m, hr, ?_⟩
  generalize hjob : t.job = job at *
  generalize hans : answersFor job.id M = ans at *
  generalize hta : some t = ot at hph
  cases hph with
  | unborn => cases hta
  | init key =>
    cases hta
    refine ⟨⟨rfl, .init, rfl, rfl, rfl, rfl, rfl, rfl, rfl, rfl, hans.symm⟩, by simpa using hmv, ?_⟩
    intro ref hp
    simp [ActiveAt] at hp
  | starting key n b hn hb =>
    cases hta
    exact absurd rfl (hidle _ _)
  | running t' ref c hj hp =>
    cases hta
    have hpend : t.pc.pend = [] := by
      cases hpc : t.pc <;> simp [SysPc.pend]
      exact absurd hpc (hidle _ _)
    have hpl : SamePlace t.pc t.pc.toJobPc := by
      cases hpc : t.pc <;> rw [hpc] at hp <;> simp only [ActiveAt] at hp <;> try constructor
      exact absurd hpc (hidle _ _)
    refine ⟨⟨rfl, hpl, by simp [SysTask.toJobM, hpend], rfl, rfl, rfl, rfl, rfl, rfl, rfl, ?_⟩, by simpa using hmv, ?_⟩
    · rw [hjob, hans]
    · exact fun _ _ => ⟨c, rfl⟩
  | finishing t' ref c es E tf hj hr hp hes hE hn =>
    cases hta
    exact absurd hp (hidle _ _)
  | over t' hj hp =>
    cases hta
    have hpend : t.pc.pend = [] := by
      cases hpc : t.pc <;> simp [SysPc.pend]
      exact absurd hpc (hidle _ _)
    have hpl : SamePlace t.pc t.pc.toJobPc := by
      cases hpc : t.pc <;> rw [hpc] at hp <;> simp only [OverAt] at hp <;> try constructor
      exact absurd hpc (hidle _ _)
    refine ⟨⟨rfl, hpl, by simp [SysTask.toJobM, hpend], rfl, rfl, rfl, rfl, rfl, rfl, rfl, ?_⟩, by simpa using hmv, ?_⟩
    · rw [hjob, hans]
    · intro ref hx
      cases hpc : t.pc <;> rw [hpc] at hp hx <;> simp only [OverAt, ActiveAt] at hp hx
      exact absurd hpc (hidle _ _)

theorem written_own (ja : List JobAct) : written (ownMoves ja) = written ja := by
  have : ∀ (f : List Log → JobAct → List Log), (∀ ls n, f ls (.tick n) = ls) → (∀ ls, f ls .cancel = ls) →
      ∀ ls, (ownMoves ja).foldl f ls = ja.foldl f ls := by
    intro f h1 h2
    induction ja with
    | nil => intro ls; rfl
    | cons a ja ih =>
      intro ls
      cases a <;> simp only [ownMoves, List.filter_cons] at ih ⊢ <;> simp [ih, h1, h2]
  exact this _ (fun _ _ => rfl) (fun _ => rfl) _

theorem firstEnd_own (ja : List JobAct) : firstEnd (ownMoves ja) = firstEnd ja := by
  have : ∀ (f : Option RunResult → JobAct → Option RunResult), (∀ ls n, f ls (.tick n) = ls) → (∀ ls, f ls .cancel = ls) →
      ∀ ls, (ownMoves ja).foldl f ls = ja.foldl f ls := by
    intro f h1 h2
    induction ja with
    | nil => intro ls; rfl
    | cons a ja ih =>
      intro ls
      cases a <;> simp only [ownMoves, List.filter_cons] at ih ⊢ <;> simp [ih, h1, h2]
  exact this _ (fun _ _ => rfl) (fun _ => rfl) _

theorem mem_own {ja : List JobAct} {a : JobAct} (h : a ∈ ownMoves ja) : a ∈ ja := (List.mem_filter.1 h).1

theorem count_own (ja : List JobAct) : (ownMoves ja).count .jobSignal = ja.count .jobSignal := by
  unfold ownMoves
  rw [List.count_filter (by rfl)]

/-- **C104** However many workflows, jobs and cancellations the engine is busy with: whenever a job run is not in the middle of
announcing something, it is exactly where the job, alone in the world, gets to by the same moves (and its runner's), with the same
notifications, step results, signal, log stream, and answers to `cancel_job`; if no other job run announced a job of the same
workflow id and key. -/
theorem C104_alone (acts : List SysAct) (M : Sys) (h : SysReach acts M) (hk : HooksKeepJobs acts) (r i : Nat) (t : SysTask)
    (ht : taskAt M r i = some t) (hno : NoOther M t.job.id r i) (hidle : ∀ es k, t.pc ≠ .emitting es k) :
    ∃ ja m, JobReach t.job 0 ja m ∧ SameJob M t m ∧ ownMoves ja = jobMoves r i acts := by
  obtain ⟨ja, m, h1, h2, h3, _⟩ := alone_here h hk ht hno hidle
  exact ⟨ja, m, h1, h2, h3⟩

/-- **C104** (no panic) Its steps always find the job's signal. -/
theorem C104_never_panics (acts : List SysAct) (M : Sys) (h : SysReach acts M) (hk : HooksKeepJobs acts) (r i : Nat) (t : SysTask)
    (ht : taskAt M r i = some t) (hno : NoOther M t.job.id r i) (s : Step) : t.pc ≠ .panicked s := by
  intro hpc
  obtain ⟨ja, m, h1, h2, h3⟩ := C104_alone acts M h hk r i t ht hno (by simp [hpc])
  have := h2.place
  rw [hpc] at this
  cases this

/-- **C104** (logs) While a step executes, the notifications about it are: that it was handed over, and then the first entries the
runner wrote for it, in order, each once. -/
theorem C104_logs_in_order (acts : List SysAct) (M : Sys) (h : SysReach acts M) (hk : HooksKeepJobs acts) (r i : Nat) (t : SysTask)
    (ht : taskAt M r i = some t) (hno : NoOther M t.job.id r i) (s : Step) (t0 d : Time) (ref : Nat)
    (hpc : t.pc = .handling s t0 ref ∨ t.pc = .select s t0 d ref) :
    ∃ (pre : List Event) (n : Nat),
      t.evs = pre ++ [.runStep s, .stepState s.id .queued, .runnerRun s.toCommand,
        .stepState s.id .inProgress] ++ ((written (jobMoves r i acts)).take n).map (.log s.id) := by
  obtain ⟨ja, m, h1, h2, h3⟩ := C104_alone acts M h hk r i t ht hno (by rcases hpc with hpc | hpc <;> simp [hpc])
  have hp : m.pc = .handling s t0 ∨ m.pc = .select s t0 d := by
    have := h2.place
    rcases hpc with hpc | hpc <;> rw [hpc] at this <;> generalize m.pc = q at this <;> cases this <;> simp
  obtain ⟨pre, n, he⟩ := C17_logs_in_order t.job 0 ja m h1 s t0 d hp
  exact ⟨pre, n, by rw [← h2.events, he, ← h3, written_own]⟩

/-- **C104** (result) When a step's result is decided, everything the runner wrote for it has been announced, and the result is
the one the runner ended with first; whatever the rest of the engine did meanwhile. -/
theorem C104_logs_complete (acts : List SysAct) (M M' : Sys) (h : SysReach acts M) (hk : HooksKeepJobs acts) (r i : Nat) (t t' : SysTask)
    (ht : taskAt M r i = some t) (hno : NoOther M t.job.id r i) (hs : M.step (.task r i .recv) = some M')
    (ht' : taskAt M' r i = some t') (es : List Event) (hd : t'.pc = .emitting es .next) :
    ∃ (pre : List Event) (s : Step) (res : RunResult) (x : StepRunResult) (t0 : Time),
      t'.results = t.results ++ [x] ∧
      t'.evs ++ es = pre ++ [.runStep s, .stepState s.id .queued, .runnerRun s.toCommand,
        .stepState s.id .inProgress] ++ (written (jobMoves r i acts)).map (.log s.id) ++
        [.stepState s.id x.state, .stepCompleted x] ∧
      firstEnd (jobMoves r i acts) = some res ∧ x.id = s.id ∧ Reports res x ∧ x.startedAt = some t0 ∧ x.completedAt = some M.now := by
  rcases sys_step_cases hs with ⟨wf, hx, _⟩ | ⟨_, _, ρ₁, ρ₂, hx, _⟩ |
    ⟨_, _, _, ρ₁, u, g', ρ₂, hx, hρ, hu, hmm, rfl⟩ | ⟨n, hx, _⟩ | ⟨j, x, hx, _⟩
  all_goals cases hx
  have : t = u := by
    simp [taskAt, hρ, hu] at ht
    exact ht.symm
  subst this
  simp only [Sys.taskStep] at hmm
  cases hst : t.step M.now .recv with
  | none => simp [hst] at hmm
  | some t1 =>
    simp only [hst, Option.map_some, Option.some.injEq, Prod.mk.injEq] at hmm
    obtain ⟨rfl, rfl⟩ := hmm
    have : t' = t1 := by
      simp [taskAt, SysRun.setTask, (List.getElem?_eq_some_iff.1 hρ).1, (List.getElem?_eq_some_iff.1 hu).1] at ht'
      exact ht'.symm
    subst this
    have hsel : ∃ s t0 d ref, t.pc = .select s t0 d ref := by
      simp only [SysTask.step] at hst
      split at hst
      · exact ⟨_, _, _, _, by assumption⟩
      · cases hst
    obtain ⟨s, t0, d, ref, hpc⟩ := hsel
    obtain ⟨ja, m, h1, h2, h3, h4⟩ := alone_here h hk ht hno (by simp [hpc])
    have hact : ActiveAt ref t.pc := by simp [hpc, ActiveAt]
    obtain ⟨c, rfl⟩ := h4 ref hact
    obtain ⟨_, b, hb, hstep⟩ := active_step hst (taskOk_reach h hρ (List.mem_of_getElem? hu)) hact (by simp) c
    cases hb
    have hstep' := step_answers (by simp) hstep (answersFor t.job.id M)
    obtain ⟨pre, s', res, x, t0', e1, e2, e3, e4, e5, e6, e7⟩ := C17_logs_complete t.job 0 ja _ _ h1 hstep' (by simp [SysTask.toJobM, hd, SysPc.toJobPc])
    refine ⟨pre, s', res, x, t0', e1, ?_, ?_, e4, e5, e6, e7⟩
    · simpa [SysTask.toJobM, hd, SysPc.pend, ← h3, written_own] using e2
    · rw [← h3, firstEnd_own]; exact e3

/-- **C104** (cancel) Of all calls of `cancel_job` with this job at most one is answered `Ok`, and the job run passes at most one
cancellation on to a step; only after such an answer. -/
theorem C104_cancel_once (acts : List SysAct) (M : Sys) (h : SysReach acts M) (hk : HooksKeepJobs acts) (r i : Nat) (t : SysTask)
    (ht : taskAt M r i = some t) (hno : NoOther M t.job.id r i) (hidle : ∀ es k, t.pc ≠ .emitting es k) :
    (answersFor t.job.id M).count true ≤ 1 ∧ (jobMoves r i acts).count .jobSignal ≤ 1 ∧
      (JobAct.jobSignal ∈ jobMoves r i acts → true ∈ answersFor t.job.id M) := by
  obtain ⟨ja, m, h1, h2, h3⟩ := C104_alone acts M h hk r i t ht hno hidle
  obtain ⟨_, c2, c3, _, c5⟩ := C23_cancel_forwarded_once t.job 0 ja m h1
  rw [h2.answers] at c3 c5
  refine ⟨c5, by rw [← h3, count_own]; exact c2, fun hm => c3 (mem_own (h3 ▸ hm))⟩

/-- **C104** (cancel passed on) An accepted cancellation that has not been passed on can be, whenever a step of the job is waiting. -/
theorem C104_cancel_passed_on (acts : List SysAct) (M : Sys) (h : SysReach acts M) (hk : HooksKeepJobs acts) (r i : Nat) (t : SysTask)
    (ht : taskAt M r i = some t) (hno : NoOther M t.job.id r i) (s : Step) (t0 d : Time) (ref : Nat) (hpc : t.pc = .select s t0 d ref)
    (ha : (t.job.id, true) ∈ M.answers) :
    JobAct.jobSignal ∈ jobMoves r i acts ∨ ∃ M' t', M.step (.task r i .jobSignal) = some M' ∧ taskAt M' r i = some t' ∧
      t'.sig.signal = t.sig.signal.or (some .cancel) := by
  obtain ⟨ja, lag, m, sl, hr, hsl, hph, hmv⟩ := alone_reach h hk hno (fun u hu => by rw [ht] at hu; cases hu; rfl)
  rw [ht] at hph
  have hans : true ∈ answersFor t.job.id M := by
    simp only [answersFor, List.mem_map, List.mem_filter]
    exact ⟨_, ⟨ha, by simp⟩, rfl⟩
  generalize hjob : t.job = job at *
  generalize hao : answersFor job.id M = ans at *
  generalize hta : some t = ot at hph
  cases hph with
  | running t' ref' c hj hp =>
    cases hta
    rw [hpc] at hp
    cases hp
    obtain ⟨c1, _⟩ := C23_cancel_forwarded_once job 0 ja _ hr
    by_cases hm : JobAct.jobSignal ∈ ja
    · left
      rw [← hmv]
      exact List.mem_append_left _ (List.mem_filter.2 ⟨hm, rfl⟩)
    · right
      obtain ⟨m', e1, e2⟩ := c1 hans hm s t0 d (by simp [SysTask.toJobM, hpc, SysPc.toJobPc])
      obtain ⟨ρ, hρ, hti⟩ := taskAt_some ht
      simp only [JobM.step, SysTask.toJobM, hpc, SysPc.toJobPc] at e1
      split at e1
      · rename_i v hv
        cases e1
        have hts : Sys.taskStep M.mgr ρ M.now i t .jobSignal = some ({ M.mgr with heap := M.mgr.heap.set ref (c.poll 0).1 },
            ρ.setTask i { t with pc := .handling s t0 ref, sig := (t.sig.set v).state }) := by
          simp [Sys.taskStep, hpc, hsl.2, hv]
        refine ⟨_, { t with pc := .handling s t0 ref, sig := (t.sig.set v).state }, by simp [Sys.step, hρ, hti, hts]; rfl, ?_, e2⟩
        · simp [taskAt, SysRun.setTask, (List.getElem?_eq_some_iff.1 hρ).1, (List.getElem?_eq_some_iff.1 hti).1]
      · cases e1
  | init key => cases hta; cases hpc
  | starting => cases hta; cases hpc
  | finishing t' ref c es E tf hj hr hp hes hE hn => cases hta; rw [hp] at hpc; cases hpc
  | over t' hj hp => cases hta; rw [hpc] at hp; exact absurd hp (by simp [OverAt])
  | unborn => cases hta

/-! ## Witness: two workflows, one of them cancelled, its step waiting -/

/-- The job of the second workflow is cancelled while its step is handed over; the runner has written a line. -/
def SystemEx.waiting : List SysAct :=
  SystemEx.half ++ [.cancel ⟨"w", "a"⟩, .cancel ⟨"v", "a"⟩, .task 1 0 .accept, .task 1 0 .emit, .task 1 0 .emit, .task 1 0 .enter,
    .task 1 0 (.push ⟨.log, "hello"⟩)]

theorem SystemEx.keeps_waiting : HooksKeepJobs SystemEx.waiting := by
  have ha : Apart SystemEx.waiting := by
    refine ⟨by decide, ?_, ?_⟩
    · intro wf hwf k j hj
      have : started SystemEx.waiting = [SystemEx.single "v", SystemEx.single "w"] := rfl
      rw [this] at hwf
      simp only [List.mem_cons, List.not_mem_nil, or_false] at hwf
      rcases hwf with rfl | rfl <;> simp [SystemEx.single] at hj <;> obtain ⟨rfl, rfl⟩ := hj <;> rfl
    · intro r i b s hm wf hwf
      simp [SystemEx.waiting, SystemEx.half, SystemEx.open', SystemEx.queue, SystemEx.work] at hm
      rcases hm with ⟨rfl, rfl, rfl, rfl⟩ | ⟨rfl, rfl, rfl, rfl⟩ <;> cases hwf <;> rfl
  refine hooksKeepJobs_of ha ?_
  intro r i b s hm wf hwf k j hj
  simp [SystemEx.waiting, SystemEx.half, SystemEx.open', SystemEx.queue, SystemEx.work] at hm
  rcases hm with ⟨rfl, rfl, rfl, rfl⟩ | ⟨rfl, rfl, rfl, rfl⟩ <;> cases hwf <;> simp [SystemEx.single] at hj <;>
    obtain ⟨rfl, rfl⟩ := hj <;> rfl

theorem SystemEx.waiting_announced : ((SystemEx.after SystemEx.waiting).runs.map fun ρ => ρ.tasks.map fun t => decide (Event.runJob ⟨"w", "a"⟩ ∈ t.evs)) =
    [[false], [true]] := by decide +kernel

theorem SystemEx.second_only {acts : List SysAct} {M : Sys} {j : JobId} (h : SysReach acts M)
    (ha : (M.runs.map fun ρ => ρ.tasks.map fun t => decide (Event.runJob j ∈ t.evs)) = [[false], [true]]) : NoOther M j 1 0 := by
  intro r i hx
  obtain ⟨ρ, t, h1, h2, h3⟩ := announced_evs h hx
  have h4 := congrArg (fun l => l[r]?) ha
  simp only [List.getElem?_map, h1, Option.map_some] at h4
  match r with
  | 0 =>
    have h5 := congrArg (fun l => l[i]?) (Option.some.inj h4)
    simp only [List.getElem?_map, h2, Option.map_some, h3, decide_true] at h5
    match i with
    | 0 => simp at h5
    | n + 1 => simp at h5
  | 1 =>
    have h5 := congrArg (fun l => l[i]?) (Option.some.inj h4)
    simp only [List.getElem?_map, h2, Option.map_some, h3, decide_true] at h5
    match i with
    | 0 => exact ⟨rfl, rfl⟩
    | n + 1 => simp at h5
  | n + 2 => simp at h4

theorem SystemEx.waiting_alone : NoOther (SystemEx.after SystemEx.waiting) ⟨"w", "a"⟩ 1 0 :=
  SystemEx.second_only (acts := SystemEx.waiting) rfl SystemEx.waiting_announced

/-- The hypotheses are met, for a job that is cancelled and whose step is waiting. -/
example : ∃ (M : Sys) (t : SysTask) (s : Step) (t0 d : Time) (ref : Nat), SysReach SystemEx.waiting M ∧ HooksKeepJobs SystemEx.waiting ∧
    taskAt M 1 0 = some t ∧ NoOther M t.job.id 1 0 ∧ t.pc = .select s t0 d ref ∧ (t.job.id, true) ∈ M.answers ∧
    JobAct.jobSignal ∉ jobMoves 1 0 SystemEx.waiting ∧ written (jobMoves 1 0 SystemEx.waiting) = [⟨.log, "hello"⟩] :=
  ⟨SystemEx.after SystemEx.waiting, _, _, _, _, _, rfl, SystemEx.keeps_waiting, rfl, SystemEx.waiting_alone, rfl, by decide, by decide, rfl⟩

end AstroRun
