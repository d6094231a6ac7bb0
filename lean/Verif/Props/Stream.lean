import Verif.Lemmas.Stream

/-!
# Log streams (C27, C28, C29)
-/

namespace AstroRun

/-- **C27** exactly-once FIFO.  After any schedule of pushes, ends and polls:
* what the consumer received is a prefix of what was written, in the same order (no loss inside, no
  repetition, no reordering);
* a runnable consumer for which entries are outstanding gets the next one when polled;
* end-of-stream is reported by a poll iff a result is set and everything written so far was received. -/
theorem C27_exactly_once_fifo {acts : List StreamAct} {s : StreamSys} (h : StreamRun acts s) :
    s.received <+: pushed acts ∧
    (∀ l rest, s.cons = .runnable → pushed acts = s.received ++ l :: rest →
      ∃ s', s.step .poll = some s' ∧ s'.received = s.received ++ [l] ∧ s'.cons = .runnable) ∧
    (s.cons = .runnable →
      ((∃ s', s.step .poll = some s' ∧ s'.cons = .finished) ↔
        (s.st.result.isSome ∧ s.received = pushed acts))) := by
  obtain ⟨h1, h2, h3, h4, h5⟩ := StreamInv_run h
  have hlen : s.received.length = s.st.index := by rw [h3, List.length_take]; omega
  refine ⟨?_, fun l rest hr hp => ?_, fun hr => ?_⟩
  · rw [h3, ← h1]; exact List.take_prefix _ _
  · have hl : s.st.logs[s.st.index]? = some l := by
      rw [h1, hp, ← hlen, List.getElem?_append_right (Nat.le_refl _)]; simp
    exact ⟨_, by simp [StreamSys.step, hr, StreamState.poll, hl]; rfl, rfl, by simp [hr]⟩
  · have hrecv : s.received = pushed acts ↔ s.st.logs.length ≤ s.st.index := by
      rw [← h1, h3]
      refine ⟨fun h => ?_, List.take_of_length_le⟩
      have := congrArg List.length h
      simp only [List.length_take] at this
      omega
    rw [hrecv]
    cases hl : s.st.logs[s.st.index]? with
    | some l =>
      have hlt : s.st.index < s.st.logs.length := by
        rcases Nat.lt_or_ge s.st.index s.st.logs.length with h | h
        · exact h
        · rw [List.getElem?_eq_none h] at hl; cases hl
      constructor
      · rintro ⟨s', hs, hf⟩
        simp [StreamSys.step, hr, StreamState.poll, hl] at hs
        subst hs; simp [hr] at hf
      · rintro ⟨_, hge⟩; omega
    | none =>
      have hge : s.st.logs.length ≤ s.st.index := List.getElem?_eq_none_iff.1 hl
      cases hres : s.st.result with
      | none =>
        constructor
        · rintro ⟨s', hs, hf⟩
          simp [StreamSys.step, hr, StreamState.poll, hl, hres] at hs
          subst hs; simp at hf
        · simp
      | some r =>
        simp [StreamSys.step, hr, StreamState.poll, hl, hres, hge]

example : ∃ s, StreamRun [.push (Log.ofLog "a"), .poll, .poll, .push (Log.ofError "b"),
      .endCheck .succeeded, .endWrite 0, .push (Log.ofLog "late"), .poll] s ∧
    s.cons = .runnable ∧ s.received = [Log.ofLog "a", Log.ofError "b"] ∧
    s.st.result = some .succeeded := ⟨_, rfl, rfl, rfl, rfl⟩

/-- **C27** (finish) once the consumer has seen end-of-stream at the end of a schedule, it has received every
entry written by that schedule up to the poll that reported it. -/
theorem C27_complete_at_end {acts : List StreamAct} {s s' : StreamSys} (h : StreamRun acts s)
    (hp : s.step .poll = some s') (hf : s'.cons = .finished) :
    s'.received = pushed acts ∧ s'.st.result.isSome := by
  have hr : s.cons = .runnable := by
    cases hc : s.cons <;> simp [StreamSys.step, hc] at hp
    rfl
  have h27 := (C27_exactly_once_fifo h).2.2 hr
  obtain ⟨a, b⟩ := h27.1 ⟨s', hp, hf⟩
  simp only [StreamSys.step, hr, StreamState.poll] at hp
  split at hp
  · next heq => simp at hp; subst hp; simp [hr] at hf
  · next st' heq =>
    simp at hp; subst hp
    refine ⟨b, ?_⟩
    have : st'.result = s.st.result := by
      split at heq
      · cases heq
      · split at heq <;> cases heq <;> rfl
    simpa [this] using a
  · next heq => simp at hp; subst hp; simp at hf

/-- **C28** no lost wake-up.  In every reachable state a parked consumer has nothing to receive: all entries
written so far were received and no result is set; and the next push or completed `end` makes it runnable. -/
theorem C28_no_lost_wakeup {acts : List StreamAct} {s : StreamSys} (h : StreamRun acts s)
    (hp : s.cons = .parked) :
    s.received = pushed acts ∧ s.st.result = none ∧
    (∀ l s', s.step (.push l) = some s' → s'.cons = .runnable) ∧
    (∀ i s', s.step (.endWrite i) = some s' → s'.cons = .runnable) := by
  obtain ⟨h1, h2, h3, h4, h5⟩ := StreamInv_run h
  obtain ⟨a, b, c⟩ := h4 hp
  refine ⟨by rw [h3, ← h1, a, List.take_length], b, fun l s' hs => ?_, fun i s' hs => ?_⟩
  · simp only [StreamSys.step, StreamState.push, Option.some.injEq] at hs
    subst hs; simp [ConsStatus.wake, hp, c]
  · simp only [StreamSys.step, StreamState.endWrite] at hs
    cases hi : s.inFlight[i]? with
    | none => simp [hi] at hs
    | some r => simp only [hi, Option.some.injEq] at hs; subst hs; simp [ConsStatus.wake, hp, c]

example : ∃ s, StreamRun [.push (Log.ofLog "a"), .poll, .poll, .endCheck (.failed 2)] s ∧
    s.cons = .parked ∧ s.inFlight = [.failed 2] := ⟨_, rfl, rfl, rfl⟩

/-- **C29** (partial).  Full claim: in every schedule the result, once set, never changes.  That is false
(`C29_refuted`).  Proved: the result never changes once it is set and no *other* `end` call is between its
check and its write at that moment — in particular whenever the `end` calls do not overlap in time: every
call that begins after a result is set is ignored. -/
theorem C29_result_write_once_partial {s s' : StreamSys} {r : RunResult} {more : List StreamAct}
    (hr : s.st.result = some r) (hq : s.inFlight = []) (hrun : s.runActs more = some s') :
    s'.st.result = some r := by
  induction more generalizing s with
  | nil => simp [StreamSys.runActs] at hrun; exact hrun ▸ hr
  | cons a as ih =>
    simp only [StreamSys.runActs] at hrun
    cases hs : s.step a with
    | none => simp [hs] at hrun
    | some s1 =>
      simp only [hs] at hrun
      refine ih ?_ ?_ hrun
      · cases a with
        | poll =>
          cases hc : s.cons <;> simp [StreamSys.step, hc, StreamState.poll] at hs
          cases hl : s.st.logs[s.st.index]? <;> simp [hl, hr] at hs <;> subst hs <;> simp [hr]
        | push l => simp [StreamSys.step, StreamState.push] at hs; subst hs; exact hr
        | endCheck q =>
          simp [StreamSys.step, StreamState.isEnded, hr] at hs; exact hs ▸ hr
        | endWrite i => simp [StreamSys.step, hq] at hs
      · cases a with
        | poll =>
          cases hc : s.cons <;> simp [StreamSys.step, hc, StreamState.poll] at hs
          cases hl : s.st.logs[s.st.index]? <;> simp [hl, hr] at hs <;> subst hs <;> simp [hq]
        | push l => simp [StreamSys.step, StreamState.push] at hs; subst hs; exact hq
        | endCheck q =>
          simp [StreamSys.step, StreamState.isEnded, hr] at hs; exact hs ▸ hq
        | endWrite i => simp [StreamSys.step, hq] at hs

/-- **C29** for one caller at a time: of any sequence of `end` calls executed one after the other, the first one fixes the result. -/
theorem C29_sequential_first_end_wins (rs : List RunResult) (r : RunResult) :
    ((r :: rs).foldl (fun s q => (StreamState.endSeq s q).1) ({} : StreamState)).result = some r := by
  have : ∀ (s : StreamState), s.result = some r →
      (rs.foldl (fun s q => (StreamState.endSeq s q).1) s).result = some r := by
    induction rs with
    | nil => intro s h; exact h
    | cons q qs ih =>
      intro s h
      exact ih _ (by simp [StreamState.endSeq, StreamState.isEnded, h])
  exact this _ (by simp [StreamState.endSeq, StreamState.isEnded, StreamState.endWrite])

example : ∃ s, StreamRun [.endCheck .succeeded, .endWrite 0] s ∧ s.st.result = some .succeeded ∧
    s.inFlight = [] := ⟨_, rfl, rfl, rfl⟩

/-- The full C29 is false of the code: two overlapping `end` calls can both pass the check, and the second
write replaces a result that a consumer may already have read. -/
theorem C29_refuted : ∃ (acts more : List StreamAct) (s s' : StreamSys),
    StreamRun acts s ∧ s.st.result = some .succeeded ∧ s.cons = .finished ∧
    s.runActs more = some s' ∧ s'.st.result = some (.failed 1) :=
  ⟨[.endCheck .succeeded, .endCheck (.failed 1), .endWrite 0, .poll], [.endWrite 0], _, _,
    rfl, rfl, rfl, rfl, rfl⟩

end AstroRun
