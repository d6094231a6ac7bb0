import Verif.Lemmas.JobMachine
import Verif.Props.Job

/-! # C14 (refinement), C17, C19, C20, C22, C23: the concurrent job machine -/

namespace AstroRun
open Spec

/-- Every complete run of the concurrent machine, under every schedule, is a run of the sequential view: so
C10–C16 and C18 hold of it. -/
theorem C14_every_schedule_is_sequential (job : Job) (t : Time) (acts : List JobAct) (m : JobM)
    (h : JobReach job t acts m) (r : JobRunResult) (hf : m.pc = .finished r) :
    ∃ env, jobRun env job = (m.acc.trace, r) := by
  have := (pcInv_run h).1
  simpa only [PcInv, hf] using this

/-- The machine cannot get stuck between its own moves: as long as the job has not finished or panicked, the
engine or the runner can move, except while waiting in `select!` for a log, the result, a cancel or the timer
(and then letting `timeout` pass enables the timer). -/
theorem C14_progress (job : Job) (t : Time) (acts : List JobAct) (m : JobM) (_ : JobReach job t acts m)
    (hf : ∀ r, m.pc ≠ .finished r) (hp : m.pc ≠ .panicked) :
    (∃ a m', m.step a = some m' ∧ ¬ External a) ∨
      (∃ s t0 d, m.pc = .select s t0 d ∧ ∀ n, d ≤ m.now + n →
        ∃ m1 m2, m.step (.tick n) = some m1 ∧ m1.step .timer = some m2) := by
  rcases hpc : m.pc with _ | _ | ⟨s, t0⟩ | ⟨s, t0⟩ | ⟨s, t0⟩ | ⟨s, t0, d⟩ | r | _
  · left
    refine ⟨.check true, ?_⟩
    simp only [JobM.step, hpc]
    split <;> exact ⟨_, rfl, by simp [External]⟩
  · left
    rcases hr : m.rest with _ | ⟨st, rest⟩
    · exact ⟨.finishJob, by simp [JobM.step, hpc, hr, External]⟩
    · refine ⟨.nextStep true st, ?_⟩
      simp only [JobM.step, hpc, hr]
      split <;> exact ⟨_, rfl, by simp [External]⟩
  · left
    refine ⟨.call, ?_⟩
    simp only [JobM.step, hpc]
    split <;> exact ⟨_, rfl, by simp [External]⟩
  · left; exact ⟨.accept, by simp [JobM.step, hpc, External]⟩
  · left; exact ⟨.enter, by simp [JobM.step, hpc, External]⟩
  · right
    refine ⟨s, t0, d, rfl, fun n hn => ⟨_,
      { m with now := m.now + n, pc := .handling s t0, sig := (m.sig.set .timeout).state }, rfl, ?_⟩⟩
    simp [JobM.step, hpc, hn]
  · exact absurd hpc (hf r)
  · exact absurd hpc hp

/-- **C17** When a step completes, the log entries announced for it are exactly those the runner wrote since
it was called, in order, between `InProgress` and the terminal state; and the result is the first one the
runner ended with (C18). -/
theorem C17_logs_complete (job : Job) (t : Time) (acts : List JobAct) (m m' : JobM)
    (h : JobReach job t acts m) (hs : m.step .recv = some m') (hd : m'.pc = .next) :
    ∃ (pre : List Event) (s : Step) (res : RunResult) (r : StepRunResult) (t0 : Time),
      m'.acc.results = m.acc.results ++ [r] ∧
      m'.acc.trace = pre ++ [.runStep s, .stepState s.id .queued, .runnerRun s.toCommand,
        .stepState s.id .inProgress] ++ (written acts).map (.log s.id) ++
        [.stepState s.id r.state, .stepCompleted r] ∧
      firstEnd acts = some res ∧ r.id = s.id ∧ Reports res r ∧ r.startedAt = some t0 ∧ r.completedAt = some m.now := by
  have hpi := (pcInv_run h).1
  have hsl := (allInv_run h).1
  simp only [JobM.step] at hs
  split at hs
  · rename_i s t0 d hpc
    simp only [PcInv, hpc] at hpi
    obtain ⟨hlog, hres⟩ := hsl s (by simp [hpc, runningStep])
    split at hs
    · cases hs; simp [JobM.emit] at hd
    · rename_i st' hpoll
      split at hs
      · rename_i res hr
        cases hs
        obtain ⟨⟨b, ps, st, c, h1, h2, h3, h4⟩, h5⟩ := hpi
        have hlen : m.stream.logs.length ≤ m.stream.index := by
          unfold StreamState.poll at hpoll
          split at hpoll
          · simp at hpoll
          · rename_i hn; simpa using hn
        have hid : (stepResult s.id res t0 m.now).id = s.id := by cases res <;> rfl
        refine ⟨(loopAcc job.id ps).trace, s, res, stepResult s.id res t0 m.now, t0, rfl, ?_, ?_, hid, ?_⟩
        · simp only [JobM.stepDone, h4, hid]
          rw [List.take_of_length_le hlen, hlog]
          simp
        · rw [← hres, hr]
        · cases res <;> exact ⟨⟨rfl, rfl⟩, rfl, rfl⟩
      · cases hs; simp at hd
    · simp at hs
  · simp at hs

/-- **C17** At every moment the entries announced for the running step are a prefix of those written. -/
theorem C17_logs_in_order (job : Job) (t : Time) (acts : List JobAct) (m : JobM)
    (h : JobReach job t acts m) (s : Step) (t0 d : Time) (hpc : m.pc = .handling s t0 ∨ m.pc = .select s t0 d) :
    ∃ (pre : List Event) (n : Nat),
      m.acc.trace = pre ++ [.runStep s, .stepState s.id .queued, .runnerRun s.toCommand,
        .stepState s.id .inProgress] ++ ((written acts).take n).map (.log s.id) := by
  have hpi := (pcInv_run h).1
  have hsl := (allInv_run h).1
  have : InStep job m ([.runStep s, .stepState s.id .queued, .runnerRun s.toCommand,
      .stepState s.id .inProgress] ++ (m.stream.logs.take m.stream.index).map (.log s.id)) := by
    rcases hpc with hpc | hpc <;> (simp only [PcInv, hpc] at hpi; exact hpi.1)
  have hlog := (hsl s (by rcases hpc with hpc | hpc <;> simp [hpc, runningStep])).1
  obtain ⟨b, ps, st, c, _, _, _, h4⟩ := this
  exact ⟨(loopAcc job.id ps).trace, m.stream.index, by rw [h4, ← hlog]; simp⟩

/-- **C20** If the running step's signal says Timeout, the engine had sat idle, in one wait, for at least the
step's `timeout`: with all gaps shorter than that the engine never signals Timeout. -/
theorem C20_timeout_only_after_idle_period (job : Job) (t : Time) (acts : List JobAct) (m : JobM)
    (h : JobReach job t acts m) (s : Step) (hs : runningStep m.pc = some s)
    (hto : m.sig.signal = some .timeout) : IdleTimeout acts s.timeout :=
  ((allInv_run h).2.2.2 s hs).1 hto

/-- **C20** While the engine waits for the running step and nothing is there for it to receive: once the
step's `timeout` has passed in silence, its only possible move is the timer branch, which sets the step's
signal to Timeout unless it was set before. -/
theorem C20_idle_step_is_signalled (job : Job) (t : Time) (acts : List JobAct) (m : JobM)
    (h : JobReach job t acts m) (s : Step) (t0 d : Time) (hpc : m.pc = .select s t0 d)
    (hlog : m.stream.logs.length = m.stream.index) (hend : m.stream.result = none)
    (hcan : ∀ js, m.jobSig = some js → js.signal = none ∨ js.isNotified = true)
    (ns : List Nat) (hlong : s.timeout ≤ ns.sum) :
    ∃ m1, runs JobM.step m (ns.map .tick) = some m1 ∧
      (∀ a m2, m1.step a = some m2 → External a ∨ a = .timer) ∧
      ∃ m2, m1.step .timer = some m2 ∧ m2.sig.signal = (m.sig.signal.or (some .timeout)) := by
  obtain ⟨_, hsel, _, _⟩ := allInv_run h
  obtain ⟨p, q, t1, _, _, h3, h4⟩ := hsel s t0 d hpc
  have hrun : ∀ (ns : List Nat) (m : JobM),
      runs JobM.step m (ns.map .tick) = some { m with now := m.now + ns.sum } := by
    intro ns
    induction ns with
    | nil => intro m; simp [runs]
    | cons n ns ih => intro m; simp [runs, JobM.step, ih, Nat.add_assoc]
  refine ⟨_, hrun ns m, ?_, ?_⟩
  · intro a m2 hs
    cases a
    case timer => right; rfl
    case tick => left; simp [External]
    case push => left; simp [External]
    case endStream => left; simp [External]
    case cancel => left; simp [External]
    case jobSignal =>
      exfalso
      simp only [JobM.step, hpc] at hs
      split at hs
      · rename_i js heq hjs
        split at hs
        · rename_i js' v hp
          obtain ⟨p1, p2, _⟩ := poll_some hp
          rcases hcan js hjs with hc | hc
          · rw [p2] at hc; simp at hc
          · rw [p1] at hc; simp at hc
        · simp at hs
      · simp at hs
    case recv =>
      exfalso
      simp only [JobM.step, hpc] at hs
      have : m.stream.logs[m.stream.index]? = none := by simp; omega
      simp [StreamState.poll, this, hend] at hs
    all_goals (exfalso; simp [JobM.step, hpc] at hs)
  · have hle : d ≤ m.now + ns.sum := by
      rw [h3, h4]
      have : t1 + s.timeout ≤ t1 + (ticks q + ns.sum) :=
        Nat.add_le_add_left (Nat.le_trans hlong (Nat.le_add_left _ _)) _
      rw [← Nat.add_assoc] at this
      exact this
    refine ⟨_, by simp only [JobM.step, hpc, hle, if_true]; rfl, ?_⟩
    rw [set_signal]

/-- **C19** (partial) A step the engine starts waiting for and that then stays silent while `timeout` passes is
signalled: the timer branch becomes possible, and after it the step's signal is set (to Timeout if it was not
set before).  Missing for the full claim: steps that write logs; every log line restarts the timer, see
`C19_refuted`. -/
theorem C19_silent_step_partial (job : Job) (t : Time) (acts : List JobAct) (m m1 : JobM)
    (_ : JobReach job t acts m) (s : Step) (hs : runningStep m.pc = some s) (he : m.step .enter = some m1)
    (ns : List Nat) (hlong : s.timeout ≤ ns.sum) :
    ∃ m2 m3, runs JobM.step m1 (ns.map .tick) = some m2 ∧ m2.step .timer = some m3 ∧
      m3.sig.signal = m.sig.signal.or (some .timeout) := by
  have hrun : ∀ (ns : List Nat) (m : JobM),
      runs JobM.step m (ns.map .tick) = some { m with now := m.now + ns.sum } := by
    intro ns
    induction ns with
    | nil => intro m; simp [runs]
    | cons n ns ih => intro m; simp [runs, JobM.step, ih, Nat.add_assoc]
  simp only [JobM.step] at he
  split at he
  · rename_i s' t0 hpc
    cases he
    simp only [hpc, runningStep, Option.some.injEq] at hs
    subst hs
    refine ⟨_, { m with now := m.now + ns.sum, pc := .handling s' t0, sig := (m.sig.set .timeout).state },
      hrun _ _, ?_, ?_⟩
    · simp [JobM.step, Nat.add_le_add_left hlong]
    · simp only [set_signal]
  · simp at he

namespace MachineEx
/-- a step with a timeout of 2 -/
def st (n : Nat) : Step := { id := ⟨"w", "j", n⟩, run := "true", timeout := 2 }
/-- a job of two steps -/
def job : Job := { id := ⟨"w", "j"⟩, steps := [st 0, st 1] }
/-- start the job and its first step, up to waiting -/
def go : List JobAct := [.check true, .nextStep true (st 0), .call, .accept, .enter]
/-- a chatty second: time passes, a line is written and delivered, the engine waits again -/
def chat : List JobAct := [.tick 1, .push (.ofLog "x"), .recv, .enter]
end MachineEx

/-- **C19 is false of the code**: for every `N` there is a schedule in which a step with `timeout` 2 has been
running for `N` and has not been signalled, although the engine reacts at once to everything. -/
theorem C19_refuted : ∀ N, ∃ acts m s t0 d, JobReach MachineEx.job 0 acts m ∧ m.pc = .select s t0 d ∧
    s.timeout = 2 ∧ t0 + N ≤ m.now ∧ m.now < d ∧ m.sig.signal = none := by
  intro N
  have : ∀ n, ∃ acts m, JobReach MachineEx.job 0 acts m ∧ m.pc = .select (MachineEx.st 0) 0 (n + 2) ∧ m.now = n ∧
      m.sig.signal = none ∧ m.stream.logs.length = m.stream.index ∧ m.stream.result = none := by
    intro n
    induction n with
    | zero => exact ⟨MachineEx.go, _, rfl, by rfl, by rfl, by rfl, by rfl, by rfl⟩
    | succ n ih =>
      obtain ⟨acts, m, h1, h2, h3, h4, h5, h6⟩ := ih
      have hget : (m.stream.logs ++ [Log.ofLog "x"])[m.stream.index]? = some (Log.ofLog "x") := by
        rw [← h5]; simp
      refine ⟨acts ++ MachineEx.chat,
        { m with
          now := n + 1
          pc := .select (MachineEx.st 0) 0 (n + 1 + 2)
          acc := { m.acc with trace := m.acc.trace ++ [.log (MachineEx.st 0).id (.ofLog "x")] }
          stream := { logs := m.stream.logs ++ [.ofLog "x"], result := m.stream.result, waker := some 0,
                      index := m.stream.index + 1 } }, ?_, rfl, rfl, h4, by simp [h5], h6⟩
      unfold JobReach at h1 ⊢
      rw [runs_append, h1]
      simp only [Option.bind_some, MachineEx.chat, runs, JobM.step, h2, StreamState.push, StreamState.poll, hget,
        h3, JobM.emit]
      rfl
  obtain ⟨acts, m, h1, h2, h3, h4, _, _⟩ := this N
  exact ⟨acts, m, _, _, _, h1, h2, rfl, by rw [h3]; exact Nat.le_of_eq (Nat.zero_add N),
    by rw [h3]; exact Nat.lt_add_of_pos_right (by decide), h4⟩

/-- **C23** As long as a successful cancel has not been forwarded it stays pending, every waiting step can
take it, and taking it sets that step's signal to Cancel (unless the signal was set before); over the whole
job it is forwarded at most once, and only after a successful cancel. -/
theorem C23_cancel_forwarded_once (job : Job) (t : Time) (acts : List JobAct) (m : JobM)
    (h : JobReach job t acts m) :
    (true ∈ m.answers → JobAct.jobSignal ∉ acts → ∀ s t0 d, m.pc = .select s t0 d →
      ∃ m', m.step .jobSignal = some m' ∧ m'.sig.signal = m.sig.signal.or (some .cancel)) ∧
    acts.count .jobSignal ≤ 1 ∧
    (JobAct.jobSignal ∈ acts → true ∈ m.answers) ∧
    (∀ s, runningStep m.pc = some s → m.sig.signal = some .cancel → JobAct.jobSignal ∈ acts) ∧
    m.answers.count true ≤ 1 := by
  obtain ⟨_, _, hsig, hcause⟩ := allInv_run h
  refine ⟨?_, hsig.once, hsig.cause, fun s hs => (hcause s hs).2, hsig.answersOnce⟩
  intro hans hnot s t0 d hpc
  rcases hjs : m.jobSig with _ | js
  · rcases (hsig.unreg hjs).2 with hi | ⟨r, hr⟩ <;> simp_all
  · have hr := hsig.reg js hjs
    have hcan : js.signal = some .cancel := hr.2.2.1.2 hans
    have hn : js.isNotified = false := by
      rw [← Bool.not_eq_true, hr.1]; exact hnot
    refine ⟨_, by simp only [JobM.step, hpc, hjs, SigState.poll, hn, hcan]; rfl, ?_⟩
    rw [set_signal]

/-- **C23** A step that ended Cancelled makes every later step Skipped and the job Cancelled, under every
schedule. -/
theorem C23_cancelled_step_ends_job (job : Job) (t : Time) (acts : List JobAct) (m : JobM)
    (h : JobReach job t acts m) (r : JobRunResult) (hf : m.pc = .finished r) (hns : r.state ≠ .skipped)
    (i : Nat) (hi : i < r.steps.length) (hc : r.steps[i].state = .cancelled) :
    r.state = .cancelled ∧ ∀ (j : Nat) (hj : j < r.steps.length), i < j → r.steps[j].state = .skipped := by
  obtain ⟨env, he⟩ := C14_every_schedule_is_sequential job t acts m h r hf
  have hr : (jobRun env job).2 = r := by rw [he]
  have hm : Matches job.on env.condition := by
    by_cases hm : Matches job.on env.condition
    · exact hm
    · exfalso; apply hns; rw [← hr, C13_skipped_job env job hm]
  subst hr
  refine ⟨(C13_job_outcome env job hm).1 ⟨_, List.getElem_mem hi, hc⟩, ?_⟩
  intro j hj hij
  refine C12_cancel_skips env job hm j hj ⟨(jobRun env job).2.steps[i], ?_, hc⟩
  rw [List.mem_take_iff_getElem]
  exact ⟨i, by omega, rfl⟩

/-- **C22** (partial) After a successful cancel: until it is forwarded, no waiting step can miss it (it is
always takeable); and once the step that got it ends Cancelled, nothing further runs and the job is Cancelled.
Missing for the full claim: a runner that ignores the signal and ends otherwise, see `C22_refuted`. -/
theorem C22_cancel_partial (job : Job) (t : Time) (acts : List JobAct) (m : JobM) (h : JobReach job t acts m)
    (hans : true ∈ m.answers) :
    (∀ s t0 d, m.pc = .select s t0 d → JobAct.jobSignal ∈ acts ∨
      ∃ m', m.step .jobSignal = some m' ∧ m'.sig.signal = m.sig.signal.or (some .cancel)) ∧
    (∀ r, m.pc = .finished r → Has r.steps .cancelled → r.state = .cancelled) := by
  refine ⟨fun s t0 d hpc => ?_, fun r hf hc => ?_⟩
  · by_cases hm : JobAct.jobSignal ∈ acts
    · exact .inl hm
    · exact .inr ((C23_cancel_forwarded_once job t acts m h).1 hans hm s t0 d hpc)
  · obtain ⟨x, hx, hxs⟩ := hc
    obtain ⟨i, hi, rfl⟩ := List.getElem_of_mem hx
    by_cases hns : r.state = .skipped
    · obtain ⟨env, he⟩ := C14_every_schedule_is_sequential job t acts m h r hf
      have hr : (jobRun env job).2 = r := by rw [he]
      by_cases hm : Matches job.on env.condition
      · have := (C13_job_outcome env job hm).1 ⟨_, hr ▸ hx, hxs⟩
        rw [hr] at this; exact this
      · have := C13_skipped_job env job hm
        rw [hr] at this
        rw [this] at hi; simp at hi
    · exact (C23_cancelled_step_ends_job job t acts m h r hf hns i hi hxs).1

/-- A schedule in which `cancel_job` succeeds while step 0 runs, the signal reaches it, but its runner ends
Succeeded; then step 1 runs to success too. -/
def MachineEx.ignored : List JobAct :=
  MachineEx.go ++ [.cancel, .jobSignal, .enter, .endStream .succeeded, .recv,
    .nextStep true (MachineEx.st 1), .call, .accept, .enter, .endStream .succeeded, .recv, .finishJob]

/-- **C22 is false of the code**: a job can be cancelled successfully while its first step runs and still run
its second step to success, ending Succeeded. -/
theorem C22_refuted : ∃ (job : Job) (acts : List JobAct) (m : JobM) (r : JobRunResult),
    JobReach job 0 acts m ∧ m.answers = [true] ∧ m.pc = .finished r ∧
    r.state = .succeeded ∧ r.steps.map StepRunResult.state = [.succeeded, .succeeded] :=
  ⟨MachineEx.job, MachineEx.ignored, _, _, rfl, by decide, rfl, by decide, by decide⟩

/-- A schedule with a cancel that the runner obeys. -/
def MachineEx.obeyed : List JobAct :=
  MachineEx.go ++ [.push (.ofLog "a"), .cancel, .jobSignal, .enter, .push (.ofError "b"), .recv, .enter, .recv,
    .enter, .endStream .cancelled, .recv, .nextStep true (MachineEx.st 1), .finishJob]

/-- A schedule in which step 0 idles into its timeout. -/
def MachineEx.idle : List JobAct := MachineEx.go ++ [.tick 1, .tick 1, .timer]

/-! ## Witnesses -/

example : ∃ m m1 s, JobReach MachineEx.job 0 (MachineEx.go.dropLast) m ∧ runningStep m.pc = some s ∧
    m.step .enter = some m1 ∧ s.timeout ≤ [1, 1].sum := ⟨_, _, _, rfl, rfl, rfl, by decide⟩

example : ∃ m r, JobReach MachineEx.job 0 MachineEx.obeyed m ∧ m.pc = .finished r ∧ r.state ≠ .skipped ∧
    r.steps.map StepRunResult.state = [.cancelled, .skipped] ∧ r.state = .cancelled ∧
    logsOf ⟨"w", "j", 0⟩ m.acc.trace = [.ofLog "a", .ofError "b"] :=
  ⟨_, _, rfl, rfl, by decide, by decide, by decide, by decide⟩

example : ∃ m s, JobReach MachineEx.job 0 MachineEx.idle m ∧ runningStep m.pc = some s ∧
    m.sig.signal = some .timeout := ⟨_, _, rfl, rfl, by decide⟩

example : ∃ m m' s t0 d, JobReach MachineEx.job 0 (MachineEx.go ++ [.push (.ofLog "a"), .recv, .enter,
      .endStream .succeeded]) m ∧ m.pc = .select s t0 d ∧ m.step .recv = some m' ∧ m'.pc = .next :=
  ⟨_, _, _, _, _, rfl, rfl, rfl, rfl⟩

example : ∃ m s t0 d, JobReach MachineEx.job 0 MachineEx.go m ∧ m.pc = .select s t0 d ∧
    m.stream.logs.length = m.stream.index ∧ m.stream.result = none ∧
    (∀ js, m.jobSig = some js → js.signal = none ∨ js.isNotified = true) ∧ s.timeout ≤ [1, 1].sum :=
  ⟨_, _, _, _, rfl, rfl, by decide, by decide, by intro js h; left; cases h; rfl, by decide⟩

example : ∃ m s t0 d, JobReach MachineEx.job 0 (MachineEx.go ++ [.cancel]) m ∧ true ∈ m.answers ∧
    JobAct.jobSignal ∉ (MachineEx.go ++ [.cancel]) ∧ m.pc = .select s t0 d :=
  ⟨_, _, _, _, rfl, by decide, by decide, rfl⟩

end AstroRun
