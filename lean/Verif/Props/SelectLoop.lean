import Verif.Lemmas.SelectLoop

/-!
# The loop around a running step never oversleeps (C106)
-/

namespace AstroRun
open Spec

/-- **C106** In every reachable state in which the engine's task sleeps there is nothing for it to do: everything the
runner wrote was read and handed to the log hooks, the stream has not ended, no signal of the job waits to be received,
and the timer driver holds a waker for the very time at which the step times out. -/
theorem C106_asleep {m0 m : SelLoop} (h : LoopReach m0 m) (ha : Asleep m) :
    unread m = [] ∧ m.logged = m.stream.logs ∧ m.stream.result = none ∧ ¬ jobSignalWaiting m ∧
      ∃ d, m.pc = .pending d ∧ m.timer = some d := by
  have hi := loopInv_reach h
  obtain ⟨d, h1, h2, h3, h4, h5, h6⟩ := asleep_inv hi ha
  refine ⟨h3, ?_, h4, ?_, d, h1, h2⟩
  · rw [hi.read.logged]
    exact List.take_of_length_le (by simpa [unread] using h3)
  · rintro ⟨a, b⟩
    rcases h6 with h6 | ⟨h6, -⟩
    · simp [b] at h6
    · simp [h6] at a

/-- **C106** Whatever happens wakes a sleeping task: a log line, the end of the stream, the first `cancel_job` for this
job; and when the time of the timer has come the driver can wake it. -/
theorem C106_wakes {m0 m : SelLoop} (h : LoopReach m0 m) (ha : Asleep m) :
    (∀ l, ∃ m', m.step (.push l) = some m' ∧ m'.woken = true) ∧
    (∀ r, ∃ m', m.step (.endStream r) = some m' ∧ m'.woken = true) ∧
    (m.job.signal = none → m.job.isNotified = false → ∃ m', m.step .cancel = some m' ∧ m'.woken = true) ∧
    (∀ d, m.pc = .pending d → d ≤ m.now → ∃ m', m.step .fire = some m' ∧ m'.woken = true) := by
  obtain ⟨d, h1, h2, h3, h4, h5, h6⟩ := asleep_inv (loopInv_reach h) ha
  refine ⟨fun l => ?_, fun r => ?_, fun hn hf => ?_, fun d' hd hle => ?_⟩
  · exact ⟨{ m with stream := (m.stream.push l).1 }.wakes (m.stream.push l).2, by simp only [SelLoop.step, h1],
      by simp [SelLoop.wakes, StreamState.push, h5]⟩
  · exact ⟨{ m with stream := (m.stream.endSeq r).1 }.wakes (m.stream.endSeq r).2, by simp only [SelLoop.step, h1], by
      simp [SelLoop.wakes, StreamState.endSeq, StreamState.isEnded, h4, StreamState.endWrite, h5]⟩
  · refine ⟨_, rfl, ?_⟩
    rcases h6 with h6 | ⟨-, h6⟩
    · simp [hf] at h6
    · simp [SelLoop.wakes, SigState.set, hn, h6]
  · rw [h1] at hd
    cases hd
    exact ⟨_, by simp only [SelLoop.step, h2]; rw [if_pos hle], rfl⟩

/-- **C106** A task that is not asleep is never stuck: until the loop is over, the engine has a move, in whatever order
`select!` polls its branches. -/
theorem C106_not_stuck {m : SelLoop} (ha : ¬ Asleep m) (hd : ∀ r t, m.pc ≠ .done r t)
    (order : List Branch) (ho : ∀ b, b ∈ order) :
    ∃ a m', a ∈ [SelAct.select order, .poll, .park, .repoll order, .hookDone] ∧ m.step a = some m' := by
  have ho' : allBranches order = true := by simp [allBranches, ho]
  cases hp : m.pc with
  | top => exact ⟨.select order, _, by simp, by simp [SelLoop.step, hp, ho']; rfl⟩
  | hook => exact ⟨.hookDone, _, by simp, by simp [SelLoop.step, hp]; rfl⟩
  | pending d =>
    have hw : m.woken = true := by
      rcases Bool.eq_false_or_eq_true m.woken with hw | hw
      · exact hw
      · exact absurd ⟨⟨d, hp⟩, hw⟩ ha
    exact ⟨.repoll order, _, by simp, by simp [SelLoop.step, hp, ho', hw]; rfl⟩
  | done r t => exact absurd hp (hd r t)
  | polling d todo =>
    cases todo with
    | nil => exact ⟨.park, _, by simp, by simp [SelLoop.step, hp]; rfl⟩
    | cons b todo =>
      have hs : m.step .poll = m.pollBranch d todo b := by simp [SelLoop.step, hp]
      cases b with
      | timer =>
        refine ⟨.poll, ?_⟩
        rw [hs]
        simp only [SelLoop.pollBranch]
        split <;> exact ⟨_, by simp, rfl⟩
      | signal =>
        refine ⟨.poll, ?_⟩
        rw [hs]
        simp only [SelLoop.pollBranch]
        split <;> exact ⟨_, by simp, rfl⟩
      | stream =>
        refine ⟨.poll, ?_⟩
        rw [hs]
        simp only [SelLoop.pollBranch]
        rcases stream_poll_cases m.stream 0 with ⟨l, hl, e⟩ | ⟨hl, hr, e⟩ | ⟨hl, hr, e⟩ <;> simp only [e]
        · exact ⟨_, by simp, rfl⟩
        · obtain ⟨r, hr⟩ := Option.isSome_iff_exists.1 hr
          simp only [hr]
          exact ⟨_, by simp, rfl⟩
        · exact ⟨_, by simp, rfl⟩

/-- **C106** Once the runner has ended the stream the engine can end the loop all by itself, with the runner's result and
with every log line of the stream handed to the hooks, in order. -/
theorem C106_ends {m0 m : SelLoop} (h : LoopReach m0 m) {r : RunResult} (hr : m.stream.result = some r) :
    ∃ acts m' t, acts.all engineMove = true ∧ runs SelLoop.step m acts = some m' ∧ m'.pc = .done r t ∧
      m'.logged = m.stream.logs := by
  obtain ⟨m', t, ⟨acts, h1, h2⟩, h3, h4⟩ := engine_ends (loopInv_reach h) hr
  exact ⟨acts, m', t, h1, h2, h3, h4⟩

/-- **C106** When the loop is over, its result is the stream's and everything in the stream was handed to the hooks. -/
theorem C106_over {m0 m : SelLoop} (h : LoopReach m0 m) {r : RunResult} {t : Time} (hd : m.pc = .done r t) :
    m.stream.result = some r ∧ m.logged = m.stream.logs := by
  have hi := loopInv_reach h
  obtain ⟨h1, h2⟩ := hi.read.done r t hd
  exact ⟨h1, by rw [hi.read.logged, h2, List.take_length]⟩

/-- **C106** A cancelled job's running step is told, poll by poll: if a signal `v` was written to the job (and earlier
steps have not taken it), the engine's task sleeps and the runner's task, which waits for the step's signal, is not
runnable, then the runner's task has received `v`, or the timeout that came before it. -/
theorem C106_told {m0 m : SelLoop} (h : LoopReach m0 m) (hn : m0.job.isNotified = false) (ha : Asleep m)
    (hrx : m.rx ≠ .runnable) {v : Signal} (hv : m.job.signal = some v) :
    ∃ w, m.rx = .got w ∧ (w = v ∨ w = .timeout) := by
  have hi := loopInv_reach h
  have hp := passedOn_reach h hn
  obtain ⟨d, -, -, -, -, -, h6⟩ := asleep_inv hi ha
  have hnot : m.job.isNotified = true := by
    rcases h6 with h6 | ⟨h6, -⟩
    · exact h6
    · simp [hv] at h6
  obtain ⟨w, hw⟩ := Option.isSome_iff_exists.1 (hp.told hnot)
  cases hr : m.rx with
  | runnable => exact absurd hr hrx
  | parked => have := (hi.rx.parked hr).1; simp [hw] at this
  | got u =>
    have := hi.rx.got u hr
    rw [hw] at this
    cases this
    refine ⟨w, rfl, ?_⟩
    rcases hp.only w hw with h | ⟨-, h⟩
    · exact .inr h
    · rw [hv] at h; cases h; exact .inl rfl

/-- **C106** And it is told nothing else: a cancellation only if the job was cancelled, a timeout only when the step has
been running for its time limit. -/
theorem C106_only {m0 m : SelLoop} (h : LoopReach m0 m) (hn : m0.job.isNotified = false)
    (ht : m0.job.signal ≠ some .timeout) {w : Signal} (hr : m.rx = .got w) :
    (w = .timeout ∧ m0.now + m0.timeout ≤ m.now) ∨ (w = .cancel ∧ m.job.signal = some .cancel) := by
  have hw := (loopInv_reach h).rx.got w hr
  cases w with
  | timeout => exact .inl ⟨rfl, (timeInv_reach h ht).told hw⟩
  | cancel =>
    rcases (passedOn_reach h hn).only _ hw with h | ⟨-, h⟩
    · cases h
    · exact .inr ⟨rfl, h⟩

/-- A job machine whose step `s` was accepted by the runner, and the loop at the same point. -/
theorem samePoint_start {s : Step} {t0 : Time} {l : SelLoop} {m : JobM} (hl : LoopStart l) (hpc : m.pc = .handling s t0)
    (hnow : m.now = l.now) (hjob : m.jobSig = some l.job) (hsig : m.sig = {}) (hst : m.stream = l.stream) :
    SamePoint s t0 m.acc l m := by
  refine ⟨hnow, ⟨_, hjob, rfl, rfl⟩, by rw [hsig, hl.sig], ?_, ?_⟩
  · rw [hst]; exact ⟨rfl, rfl, rfl⟩
  · simp only [hl.pc, hl.logged]
    exact ⟨hpc, by simp⟩

/-- **C106** The job machine, in which one iteration of `select!` is one move, allows everything the loop does poll by
poll: for every schedule of the loop there is one of the machine with the same moves of runner, API users and clock in
the same order, which gets to the same point: same time, signals, stream, notifications and results. -/
theorem C106_refines {s : Step} {t0 : Time} {l0 l : SelLoop} {m0 : JobM} {acts : List SelAct}
    (hl : LoopStart l0) (ht : l0.timeout = s.timeout) (hpc : m0.pc = .handling s t0) (hnow : m0.now = l0.now)
    (hjob : m0.jobSig = some l0.job) (hsig : m0.sig = {}) (hst : m0.stream = l0.stream)
    (h : runs SelLoop.step l0 acts = some l) :
    ∃ jacts m, runs JobM.step m0 jacts = some m ∧ SamePoint s t0 m0.acc l m ∧
      jacts.all loopJobMove = true ∧ jacts.filter outsideJobMove = acts.filterMap outsideMove := by
  obtain ⟨jacts, m, h1, h2, -, h3, h4⟩ := loop_runs_jobM (samePoint_start hl hpc hnow hjob hsig hst) ht h
  exact ⟨jacts, m, h1, h2, h3, h4⟩

/-- **C106** And no more than that: every schedule of the machine inside the loop is one of the loop. -/
theorem C106_exact {s : Step} {t0 : Time} {l0 : SelLoop} {m0 m : JobM} {jacts : List JobAct}
    (hl : LoopStart l0) (ht : l0.timeout = s.timeout) (hpc : m0.pc = .handling s t0) (hnow : m0.now = l0.now)
    (hjob : m0.jobSig = some l0.job) (hsig : m0.sig = {}) (hst : m0.stream = l0.stream)
    (h : runs JobM.step m0 jacts = some m) (hall : jacts.all loopJobMove = true) :
    ∃ acts l, runs SelLoop.step l0 acts = some l ∧ SamePoint s t0 m0.acc l m ∧
      acts.filterMap outsideMove = jacts.filter outsideJobMove := by
  obtain ⟨acts, l, h1, h2, -, -, h3⟩ := jobM_runs_loop (samePoint_start hl hpc hnow hjob hsig hst) ht hl.pc h hall
    [.timer, .signal, .stream] rfl
  exact ⟨acts, l, h1, h2, h3⟩

/-! ## Examples -/

namespace SelectEx

/-- A step with a time limit of 100. -/
def start : SelLoop := { timeout := 100 }

theorem start_ok : LoopStart start := ⟨rfl, rfl, rfl, rfl, rfl, rfl, rfl⟩

/-- A log line arrives between the polls of the stream and the other branches; the task goes to sleep afterwards. -/
def quiet : List SelAct :=
  [.rxPoll, .select [.stream, .timer, .signal], .poll, .push ⟨.log, "a"⟩, .poll, .poll, .park, .repoll [.stream, .signal, .timer],
    .poll, .hookDone, .select [.signal, .timer, .stream], .poll, .poll, .poll, .park, .repoll [.signal, .timer, .stream],
    .poll, .poll, .poll, .park]

/-- The same, then somebody cancels the job. -/
def cancelled : List SelAct := quiet ++
  [.cancel, .repoll [.timer, .signal, .stream], .poll, .poll, .rxPoll, .select [.timer, .signal, .stream], .poll, .poll, .poll, .park]

example : ∃ m, LoopReach start m ∧ Asleep m ∧ m.logged = [⟨.log, "a"⟩] ∧ m.rx = .parked :=
  ⟨(runs SelLoop.step start quiet).get (by decide +kernel), ⟨start_ok, quiet, by decide +kernel⟩,
    ⟨⟨100, by decide +kernel⟩, by decide +kernel⟩, by decide +kernel, by decide +kernel⟩

example : ∃ m, LoopReach start m ∧ Asleep m ∧ m.job.signal = some .cancel ∧ m.rx = .got .cancel ∧ start.job.isNotified = false :=
  ⟨(runs SelLoop.step start cancelled).get (by decide +kernel), ⟨start_ok, cancelled, by decide +kernel⟩,
    ⟨⟨100, by decide +kernel⟩, by decide +kernel⟩, by decide +kernel, by decide +kernel, rfl⟩

/-- The task sleeps and its time is over. -/
example : ∃ m, LoopReach start m ∧ Asleep m ∧ m.pc = .pending 100 ∧ 100 ≤ m.now :=
  ⟨(runs SelLoop.step start (quiet ++ [.tick 100])).get (by decide +kernel), ⟨start_ok, quiet ++ [.tick 100], by decide +kernel⟩,
    ⟨⟨100, by decide +kernel⟩, by decide +kernel⟩, by decide +kernel, by decide +kernel⟩

/-- The stream has ended and two lines are unread. -/
example : ∃ m, LoopReach start m ∧ m.stream.result = some (.failed 2) ∧ (unread m).length = 2 :=
  ⟨(runs SelLoop.step start [.push ⟨.log, "a"⟩, .push ⟨.error, "b"⟩, .endStream (.failed 2)]).get (by decide +kernel),
    ⟨start_ok, [.push ⟨.log, "a"⟩, .push ⟨.error, "b"⟩, .endStream (.failed 2)], by decide +kernel⟩, by decide +kernel,
    by decide +kernel⟩

/-- A job machine at the beginning of the loop. -/
def machine : JobM := { job := { id := ⟨"w", "j"⟩ }, pc := .handling { id := ⟨"w", "j", 0⟩, timeout := 100 } 0, jobSig := some {} }

example : machine.now = start.now ∧ machine.jobSig = some start.job ∧ machine.sig = {} ∧ machine.stream = start.stream ∧
    (runs JobM.step machine [.enter, .cancel, .jobSignal, .enter, .endStream .cancelled, .recv]).isSome := by decide +kernel

end SelectEx

end AstroRun
