import Verif.Lemmas.ClientLoop

/-!
# C120: the loop of the remote client, poll by poll

The client of a remote step waits for two things at once, the server's answers and the step's signal, and goes to sleep in
between.  However the polls interleave with the rest of the world, it misses neither, does not spin, and ends.
-/

namespace AstroRun
open Spec

/-- **C120** No lost wake-up: while the client's task sleeps, there is no answer to read, the answer has not ended, the
connection is not broken, and no signal of the step is waiting. -/
theorem C120_asleep {m0 m : CliLoop} {acts : List CliAct} (h : CliReach m0 acts m) (ha : CliAsleep m) :
    ¬ ReplyReady m ∧ ¬ SignalWaiting m.run := by
  have hi := cliInv_reach h
  have hr := hi.pending ha.1 ha.2 .reply
  have hg := hi.pending ha.1 ha.2 .signal
  refine ⟨fun hc => ?_, fun hc => ?_⟩
  · have := (readable_iff m).2 hc
    rw [hi.quiet hr] at this
    cases this
  · rcases hg with hg | ⟨hg, -⟩
    · rw [hc.2] at hg; cases hg
    · exact hc.1 hg

/-- **C120** Once it sleeps, it has passed on to the server whatever signal the step got. -/
theorem C120_told {m0 m : CliLoop} {acts : List CliAct} (h : CliReach m0 acts m) (ha : CliAsleep m) {v : Signal}
    (hv : m.run.sig.signal = some v) : v ∈ m.run.sigSent := by
  have hi := cliInv_reach h
  have hc := hi.inside (by simp [ha.1])
  rcases hi.pending ha.1 ha.2 .signal with hg | ⟨hg, -⟩
  · obtain ⟨u, hu, hu'⟩ := hi.told hg
    rw [hv] at hu
    cases hu
    simp only [hc] at hu'
    rcases hu' with h | h | h | h
    · exact h
    · cases h
    · cases h
    · cases h
  · rw [hv] at hg; cases hg

/-- **C120** A task that is neither asleep nor done is never stuck, in whatever order `select!` polls. -/
theorem C120_not_stuck {m0 m : CliLoop} {acts : List CliAct} (h : CliReach m0 acts m) (ha : ¬ CliAsleep m)
    (hf : m.run.cli ≠ .finished) {order : List CliBranch} (ho : order = [.reply, .signal] ∨ order = [.signal, .reply])
    (ok : Bool) :
    ∃ a m', a ∈ [CliAct.select order, .poll, .park, .repoll order, .sent ok, .check] ∧ m.step a = some m' := by
  have hi := cliInv_reach h
  have hb : bothBranches order = true := by rcases ho with rfl | rfl <;> rfl
  cases hp : m.pc with
  | top => exact ⟨.select order, _, by simp, by simp only [CliLoop.step, hp, hb, if_true]; rfl⟩
  | pending =>
    have hw : m.woken = true := by
      rcases Bool.eq_false_or_eq_true m.woken with hw | hw
      · exact hw
      · exact absurd ⟨hp, hw⟩ ha
    exact ⟨.repoll order, _, by simp, by simp only [CliLoop.step, hp, hw, hb, Bool.true_and, if_true]; rfl⟩
  | outside =>
    cases hc : m.run.cli with
    | calling => exact absurd hc (hi.outer hp).2
    | streaming => exact absurd hc (hi.outer hp).1
    | finished => exact absurd hc hf
    | checking =>
      refine ⟨.check, ?_⟩
      simp only [CliLoop.step, hp, if_true, RemoteRun.step, hc]
      split <;> exact ⟨_, by simp, rfl⟩
    | signalling v =>
      refine ⟨.sent ok, ?_⟩
      cases ok <;> simp only [CliLoop.step, hp, if_true, RemoteRun.step, hc] <;> exact ⟨_, by simp, rfl⟩
  | polling todo =>
    cases todo with
    | nil => exact ⟨.park, _, by simp, by simp only [CliLoop.step, hp]; rfl⟩
    | cons b todo =>
      have hc := hi.inside (by simp [hp])
      refine ⟨.poll, ?_⟩
      cases b <;> simp only [CliLoop.step, hp, CliLoop.pollBranch]
      · cases hb : m.broken with
        | some e => simp only [RemoteRun.step, hc, if_true]; exact ⟨_, by simp, rfl⟩
        | none => cases m.run.step .cliNext <;> exact ⟨_, by simp, rfl⟩
      · cases m.run.step .cliSignal <;> exact ⟨_, by simp, rfl⟩

/-- **C120** It does not spin: while nobody else does anything, the client's task makes only so many moves, whatever
`select!` chooses. -/
theorem C120_no_spin {m0 m m' : CliLoop} {acts more : List CliAct} (h : CliReach m0 acts m)
    (hc : more.all clientMove = true) (hm : runs CliLoop.step m more = some m') :
    more.length ≤ 8 * m.run.chan.length + 17 := by
  have h1 := (loopWork_runs (cliInv_reach h) hc hm).1
  have h2 := loopWork_bound (short_reach h)
  omega

/-- **C120** Where that leads: when the client's task has no move left, the step's stream has its result and the task is
over, or it sleeps, every answer that has arrived has been handed to the engine, and the signal has been passed on. -/
theorem C120_settles {m0 m : CliLoop} {acts : List CliAct} (h : CliReach m0 acts m)
    (hq : ∀ a, clientMove a = true → m.step a = none) :
    (m.run.cli = .finished ∧ m.run.outer.result ≠ none) ∨
      (CliAsleep m ∧ m.run.chan = [] ∧ ∀ v, m.run.sig.signal = some v → v ∈ m.run.sigSent) := by
  by_cases hf : m.run.cli = .finished
  · exact .inl ⟨hf, (cliInv_reach h).ended hf⟩
  · by_cases ha : CliAsleep m
    · refine .inr ⟨ha, ?_, fun v hv => C120_told h ha hv⟩
      exact Classical.byContradiction fun hc => (C120_asleep h ha).1 (.inl hc)
    · obtain ⟨a, m', hm, hs⟩ := C120_not_stuck h ha hf (.inl rfl) true
      have : clientMove a = true := by
        simp only [List.mem_cons, List.not_mem_nil, or_false] at hm
        rcases hm with rfl | rfl | rfl | rfl | rfl | rfl <;> rfl
      rw [hq a this] at hs
      cases hs

/-- Client moves leave the server's side and the connection alone. -/
theorem client_frame {m m' : CliLoop} {a : CliAct} (ha : clientMove a = true) (hs : m.step a = some m') :
    (ReplyEnded m.run → ReplyEnded m'.run) ∧ m'.broken = m.broken := by
  have key : ∀ {b : RemoteAct} {r : RemoteRun}, b ∈ [RemoteAct.cliNext, .cliSignal, .sigOk, .sigErr, .check] ∨ (∃ e, b = .netErr e) →
      m.run.step b = some r → (ReplyEnded m.run → ReplyEnded r) := by
    intro b r hb hs
    have : r.srv = m.run.srv ∧ r.queue = m.run.queue ∧ r.dropped = m.run.dropped := by
      simp only [List.mem_cons, List.not_mem_nil, or_false] at hb
      rcases hb with (rfl | rfl | rfl | rfl | rfl) | ⟨e, rfl⟩ <;> simp only [RemoteRun.step] at hs <;>
        (repeat' split at hs) <;> first
          | contradiction
          | (cases hs; exact ⟨rfl, rfl, rfl⟩)
    unfold ReplyEnded
    rw [this.1, this.2.1, this.2.2]
    exact id
  cases a <;> simp only [clientMove, Bool.false_eq_true] at ha <;> simp only [CliLoop.step] at hs
  case select => (repeat' split at hs) <;> cases hs; exact ⟨id, rfl⟩
  case park => (repeat' split at hs) <;> cases hs; exact ⟨id, rfl⟩
  case repoll => (repeat' split at hs) <;> cases hs; exact ⟨id, rfl⟩
  case sent ok =>
    split at hs <;> try contradiction
    obtain ⟨r, hr, hs⟩ := Option.map_eq_some_iff.1 hs
    subst hs
    exact ⟨key (.inl (by cases ok <;> simp)) hr, rfl⟩
  case check =>
    split at hs <;> try contradiction
    obtain ⟨r, hr, hs⟩ := Option.map_eq_some_iff.1 hs
    subst hs
    exact ⟨key (.inl (by simp)) hr, rfl⟩
  case poll =>
    split at hs <;> try contradiction
    rename_i b todo hp
    cases b <;> simp only [CliLoop.pollBranch] at hs
    · split at hs
      · rename_i e he
        obtain ⟨r, hr, hs⟩ := Option.map_eq_some_iff.1 hs
        subst hs
        exact ⟨key (.inr ⟨_, rfl⟩) hr, rfl⟩
      · split at hs <;> cases hs
        · rename_i r hr
          exact ⟨key (.inl (by simp)) hr, rfl⟩
        · exact ⟨id, rfl⟩
    · split at hs <;> cases hs
      · rename_i r hr
        exact ⟨key (.inl (by simp)) hr, rfl⟩
      · exact ⟨id, rfl⟩

/-- Left to itself the client's task comes to rest. -/
theorem cli_rests {m0 m : CliLoop} {acts : List CliAct} (h : CliReach m0 acts m) :
    ∃ rest m', rest.all clientMove = true ∧ runs CliLoop.step m rest = some m' ∧
      ∀ a, clientMove a = true → m'.step a = none := by
  obtain ⟨n, hn⟩ : ∃ n, m.work = n := ⟨_, rfl⟩
  induction n using Nat.strongRecOn generalizing m acts with
  | _ n ih =>
    by_cases hq : ∀ a, clientMove a = true → m.step a = none
    · exact ⟨[], m, rfl, rfl, hq⟩
    · obtain ⟨a, hq⟩ := Classical.not_forall.1 hq
      obtain ⟨ha, hs⟩ := Classical.not_imp.1 hq
      obtain ⟨m1, h1⟩ := Option.ne_none_iff_exists'.1 hs
      have hw := loopWork_step (cliInv_reach h) ha h1
      obtain ⟨rest, m', k1, k2, k3⟩ := ih m1.work (by omega) (acts := acts ++ [a]) ⟨h.1, runs_snoc.2 ⟨m, h.2, h1⟩⟩ rfl
      exact ⟨a :: rest, m', by simp [ha, k1], by simp [runs, h1, k2], k3⟩

theorem cli_ends {m0 m m' : CliLoop} {acts more : List CliAct} (h : CliReach m0 acts m)
    (he : ReplyEnded m.run ∨ m.broken ≠ none) (hc : more.all clientMove = true) (hm : runs CliLoop.step m more = some m')
    (hq : ∀ a, clientMove a = true → m'.step a = none) : m'.run.cli = .finished ∧ m'.run.outer.result ≠ none := by
  have h' : CliReach m0 (acts ++ more) m' := ⟨h.1, by rw [runs_append, h.2]; exact hm⟩
  have he' : ReplyEnded m'.run ∨ m'.broken ≠ none := by
    clear h' hq h
    induction more generalizing m with
    | nil => cases hm; exact he
    | cons a more ih =>
      simp only [List.all_cons, Bool.and_eq_true] at hc
      simp only [runs] at hm
      cases h1 : m.step a with
      | none => simp [h1] at hm
      | some m1 =>
        simp only [h1] at hm
        obtain ⟨k1, k2⟩ := client_frame hc.1 h1
        exact ih (by rw [k2]; exact he.imp k1 id) hc.2 hm
  rcases C120_settles h' hq with h | ⟨ha, -⟩
  · exact h
  · exact absurd (.inr he') (C120_asleep h' ha).1

/-- **C120** And it ends: once the server has ended its answer, or the connection broke, the client's task, left to itself,
ends with a result in the step's stream, whatever `select!` chooses: whatever it has done so far (`more`), it can go on, and
wherever it comes to rest it is over and the stream has its result. -/
theorem C120_ends {m0 m m' : CliLoop} {acts more : List CliAct} (h : CliReach m0 acts m)
    (he : ReplyEnded m.run ∨ m.broken ≠ none) (hc : more.all clientMove = true)
    (hm : runs CliLoop.step m more = some m') :
    (∃ rest m'', rest.all clientMove = true ∧ runs CliLoop.step m' rest = some m'' ∧
      m''.run.cli = .finished ∧ m''.run.outer.result ≠ none) ∧
    ((∀ a, clientMove a = true → m'.step a = none) → m'.run.cli = .finished ∧ m'.run.outer.result ≠ none) := by
  refine ⟨?_, cli_ends h he hc hm⟩
  obtain ⟨rest, m'', h1, h2, h3⟩ := cli_rests (acts := acts ++ more) ⟨h.1, by rw [runs_append, h.2]; exact hm⟩
  exact ⟨rest, m'', h1, h2, cli_ends h he (more := more ++ rest) (by simp only [List.all_append, hc, h1, Bool.and_self])
    (by rw [runs_append, hm]; exact h2) h3⟩

/-- **C120** `RemoteRun`, in which one iteration of `select!` is one move, allows everything the loop does: for every
schedule there is one of `RemoteRun` with the same moves of everybody else in the same order, that gets to the same state. -/
theorem C120_refines {m0 m : CliLoop} {acts : List CliAct} (h : CliReach m0 acts m) :
    ∃ racts r, runs RemoteRun.step m0.run racts = some r ∧ SameCallState r m.run ∧ racts.all inCall = true ∧
      racts.filter RemoteAct.outside = acts.filterMap outsideOf := loop_runs_remote h

/-- **C120** And no more than that: every schedule of `RemoteRun` in the loop is one of the loop. -/
theorem C120_exact {m0 : CliLoop} {r : RemoteRun} {racts : List RemoteAct} (h0 : CliStart m0)
    (hin : racts.all inCall = true) (h : runs RemoteRun.step m0.run racts = some r) :
    ∃ acts m, CliReach m0 acts m ∧ m.run = r ∧ acts.filterMap outsideOf = racts.filter RemoteAct.outside :=
  remote_runs_loop h0 hin h

/-! ## Examples -/

namespace CliLoopEx

/-- The call was accepted. -/
def start : CliLoop := { run := { cli := .streaming, srv := .starting } }

theorem start_ok : CliStart start := ⟨rfl, rfl, rfl, rfl, rfl, rfl, rfl⟩

/-- A log line arrives between the two polls; the task is woken, hands it on, and sleeps. -/
def quiet : List CliAct :=
  [.select [.reply, .signal], .poll, .env .srvRunOk, .env (.runnerPush ⟨.log, "a"⟩), .env .srvPoll, .env .srvSend, .env .xmit,
    .poll, .park, .repoll [.signal, .reply], .poll, .poll, .select [.reply, .signal], .poll, .poll, .park]

/-- The same, then the step is cancelled. -/
def cancelled : List CliAct := quiet ++
  [.env (.setSignal .cancel), .repoll [.reply, .signal], .poll, .poll, .sent true, .select [.signal, .reply], .poll, .poll, .park]

/-- The same, then the runner ends. -/
def over : List CliAct := cancelled ++
  [.env (.runnerEnd .cancelled), .env .srvPoll, .env .srvResult, .env .srvSend, .env .xmit]

/-- What the client's task then does. -/
def rest : List CliAct :=
  [.repoll [.signal, .reply], .poll, .poll, .select [.signal, .reply], .poll, .poll, .check]

example : ∃ m, CliReach start quiet m ∧ CliAsleep m ∧ m.run.outer.logs = [⟨.log, "a"⟩] ∧ m.run.sig.waker = some 0 :=
  ⟨(runs CliLoop.step start quiet).get (by decide +kernel), ⟨start_ok, by decide +kernel⟩,
    ⟨by decide +kernel, by decide +kernel⟩, by decide +kernel, by decide +kernel⟩

example : ∃ m, CliReach start cancelled m ∧ CliAsleep m ∧ m.run.sig.signal = some .cancel ∧ m.run.sigSent = [.cancel] :=
  ⟨(runs CliLoop.step start cancelled).get (by decide +kernel), ⟨start_ok, by decide +kernel⟩,
    ⟨by decide +kernel, by decide +kernel⟩, by decide +kernel, by decide +kernel⟩

example : ∃ m m', CliReach start over m ∧ ReplyEnded m.run ∧ m.run.chan ≠ [] ∧ rest.all clientMove = true ∧
    runs CliLoop.step m rest = some m' ∧ m'.run.cli = .finished ∧ m'.run.outer.result = some .cancelled :=
  ⟨(runs CliLoop.step start over).get (by decide +kernel), (runs CliLoop.step start (over ++ rest)).get (by decide +kernel),
    ⟨start_ok, by decide +kernel⟩, ⟨by decide +kernel, by decide +kernel, by decide +kernel⟩, by decide +kernel, rfl,
    by decide +kernel, by decide +kernel, by decide +kernel⟩

/-- The connection breaks while the task sleeps. -/
example : ∃ m, CliReach start (quiet ++ [.break_ "reset", .repoll [.signal, .reply], .poll, .poll, .check]) m ∧
    m.run.cli = .finished ∧ m.run.outer.result = some (.failed 1) :=
  ⟨(runs CliLoop.step start (quiet ++ [.break_ "reset", .repoll [.signal, .reply], .poll, .poll, .check])).get (by decide +kernel),
    ⟨start_ok, by decide +kernel⟩, by decide +kernel, by decide +kernel⟩

example : ([RemoteAct.srvRunOk, .runnerPush ⟨.log, "a"⟩, .srvPoll, .srvSend, .xmit, .cliNext, .setSignal .timeout, .cliSignal,
      .sigOk, .netErr "x", .check]).all inCall = true ∧
    (runs RemoteRun.step start.run [.srvRunOk, .runnerPush ⟨.log, "a"⟩, .srvPoll, .srvSend, .xmit, .cliNext,
      .setSignal .timeout, .cliSignal, .sigOk, .netErr "x", .check]).isSome := by decide +kernel

end CliLoopEx

end AstroRun
