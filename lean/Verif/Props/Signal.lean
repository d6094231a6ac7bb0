import Verif.Lemmas.Signal

/-!
# Properties of `AstroRunSignal` (C24, C25, C26)
-/

namespace AstroRun

/-- **C24** first write wins.  In any history of operations on a fresh signal, split at any write
`cancel()`/`timeout()` of value `v` after a prefix `pre`:
* if nothing was written in `pre`, the write returns Ok, and whatever operations `post` follow, the
  signal still holds `v` (so `is_cancelled`/`is_timeout` report exactly `v`);
* if something was written in `pre`, the write returns an error and leaves the signal's state as it was. -/
theorem C24_first_write_wins (pre post : List SigOp) (v : Signal) :
    let s := (({} : SigState).exec pre).1
    let after := (({} : SigState).exec (pre ++ .set v :: post)).1
    (firstSet pre = none →
        (s.op (.set v)).2 = .setOk ∧ after.signal = some v ∧
        (after.isCancelled = true ↔ v = .cancel) ∧ (after.isTimeout = true ↔ v = .timeout)) ∧
    (∀ w, firstSet pre = some w →
        (s.op (.set v)).2 = .setErr ∧ (s.op (.set v)).1 = s ∧ after.signal = some w ∧
        (after.isCancelled = true ↔ w = .cancel) ∧ (after.isTimeout = true ↔ w = .timeout)) := by
  have hs : (({} : SigState).exec pre).1.signal = firstSet pre := by
    simp [SigState.exec_signal]
  have ha : (({} : SigState).exec (pre ++ .set v :: post)).1.signal
      = (firstSet pre).or (some v) := by
    simp [SigState.exec_signal, firstSet_append, firstSet]
  refine ⟨fun h => ?_, fun w h => ?_⟩
  · rw [h] at hs ha
    refine ⟨by simp [SigState.op, SigState.set, hs], by simpa using ha, ?_, ?_⟩ <;>
      simp [SigState.isCancelled, SigState.isTimeout, ha] <;> cases v <;> simp
  · rw [h] at hs ha
    refine ⟨by simp [SigState.op, SigState.set, hs], by simp [SigState.op, SigState.set, hs],
      by simpa using ha, ?_, ?_⟩ <;>
      simp [SigState.isCancelled, SigState.isTimeout, ha] <;> cases w <;> simp

-- both hypotheses are met by non-trivial histories
example : firstSet [SigOp.poll 1, .poll 2] = none := by decide
example : firstSet [SigOp.poll 1, .set .timeout, .set .cancel] = some .timeout := by decide
example : (({} : SigState).exec [.poll 1, .set .timeout, .set .cancel, .poll 2, .poll 3]).2
    = [.pending, .setOk, .setErr, .ready .timeout, .pending] := by decide

/-- **C25** delivered at most once.  Over any history, by any number of receivers, the values that polls
yielded are either none at all or exactly one: the first value written; and a poll that comes after a
write, when no earlier poll has yielded, does yield it. -/
theorem C25_delivered_at_most_once (h : List SigOp) :
    readyValues (({} : SigState).exec h).2 = [] ∨
    ∃ v, firstSet h = some v ∧ readyValues (({} : SigState).exec h).2 = [v] := by
  suffices ∀ s : SigState, readyValues (s.exec h).2 = [] ∨
      ∃ v, s.signal.or (firstSet h) = some v ∧ readyValues (s.exec h).2 = [v] by
    simpa using this {}
  intro s
  induction h generalizing s with
  | nil => left; rfl
  | cons o os ih =>
    cases o with
    | set v =>
      have := ih (s.op (.set v)).1
      rw [SigState.op_signal] at this
      cases hs : s.signal <;>
        simp_all [SigState.exec, readyValues, SigState.op, SigState.set, firstSet]
    | poll t =>
      cases hn : s.isNotified with
      | true => left; exact readyValues_notified s _ hn
      | false =>
        cases hs : s.signal with
        | none =>
          have := ih (s.op (.poll t)).1
          rw [SigState.op_signal] at this
          simpa [SigState.exec, readyValues, SigState.op, SigState.poll, hn, hs, firstSet] using this
        | some v =>
          right
          refine ⟨v, by simp, ?_⟩
          have := readyValues_notified (s.poll t).1 os (by simp [SigState.poll, hn, hs])
          simp_all [SigState.exec, readyValues, SigState.op, SigState.poll]

/-- **C25** (second half) a written and not yet delivered signal is delivered to whoever polls next. -/
theorem C25_delivered_to_next_poll (h : List SigOp) (v : Signal) (t : Nat)
    (hv : firstSet h = some v) (hu : readyValues (({} : SigState).exec h).2 = []) :
    ((({} : SigState).exec h).1.op (.poll t)).2 = .ready v := by
  have hs : (({} : SigState).exec h).1.signal = some v := by simp [SigState.exec_signal, hv]
  have hn : (({} : SigState).exec h).1.isNotified = false := by
    have := SigState.notified_iff {} h
    simp [hu] at this
    simpa using this
  simp [SigState.op, SigState.poll, hs, hn]

example : firstSet [SigOp.poll 7, .set .cancel] = some .cancel ∧
    readyValues (({} : SigState).exec [.poll 7, .set .cancel]).2 = [] := by decide

/-- **C26** no lost wake-up.  In every reachable state of a receiver task and any number of setters:
a receiver that is parked means that nothing has been signalled; when a signal is set while it is
parked it becomes runnable at once; and a runnable receiver polled after a signal was set obtains
exactly that signal. -/
theorem C26_no_lost_wakeup {s : RxSys} (h : RxReach s) :
    (s.rx = .parked → s.sig.signal = none ∧
      ∀ v, ∃ s', s.step (.set v) = some s' ∧ s'.rx = .runnable ∧ s'.sig.signal = some v) ∧
    (∀ v, s.rx = .runnable → s.sig.signal = some v →
      ∃ s', s.step .poll = some s' ∧ s'.rx = .got v) := by
  obtain ⟨h1, h2, h3⟩ := RxInv_reach h
  refine ⟨fun hp => ?_, fun v hr hv => ?_⟩
  · obtain ⟨a, b, c⟩ := h1 hp
    exact ⟨a, fun v => ⟨_, rfl, by simp [hp, SigState.set, a, b], by simp [SigState.set, a]⟩⟩
  · have hn := h2 hr
    refine ⟨_, by simp [RxSys.step, hr, SigState.poll, hn, hv]; rfl, rfl⟩

-- parked and runnable-with-signal states are reachable
example : ∃ s, ({} : RxSys).runActs [.poll] = some s ∧ s.rx = .parked := ⟨_, rfl, rfl⟩
example : ∃ s, ({} : RxSys).runActs [.poll, .set .cancel, .set .timeout] = some s ∧
    s.rx = .runnable ∧ s.sig.signal = some .cancel := ⟨_, rfl, rfl, rfl⟩

end AstroRun
