import Verif.Lemmas.Remote
import Verif.Spec.RemoteTransparent
import Verif.Props.Remote

/-! # C86: without faults a remote execution looks like a local one -/

namespace AstroRun
open Spec

theorem runnerResult_snoc (acts : List RemoteAct) (a : RemoteAct) :
    runnerResult (acts ++ [a]) = (runnerResult acts).or (runnerResult [a]) := by
  induction acts with
  | nil => simp [runnerResult]
  | cons x xs ih => cases x <;> simp [runnerResult, ih]

theorem poll_result (s : StreamState) (t : Nat) : (s.poll t).1.result = s.result := by
  simp only [StreamState.poll]; split <;> (try split) <;> rfl

theorem inner_result {acts : List RemoteAct} {m : RemoteRun} (h : RemoteReach acts m) :
    m.inner.result = runnerResult acts := by
  refine runs_induct (P := fun acts m => m.inner.result = runnerResult acts) rfl ?_ h
  intro acts a m m' _ ih hs
  rw [runnerResult_snoc, ← ih]
  cases a <;> simp only [RemoteRun.step] at hs <;> (repeat' split at hs) <;>
    simp only [Option.some.injEq, reduceCtorEq] at hs <;> subst hs <;> simp only [runnerResult, Option.or_none]
  · rfl
  · simp only [StreamState.endSeq_result]
    cases m.inner.result <;> simp
  · rename_i hp; rw [← poll_result m.inner 0, hp]
  · rename_i hp; rw [← poll_result m.inner 0, hp]

/-- What faultless executions preserve. -/
structure CleanInv (m : RemoteRun) : Prop where
  whole : m.dropped = false
  dead : m.srv = .dead → ∃ r, .result r ∈ m.serverSent
  over : m.cli = .checking ∨ m.cli = .finished → wireResults m.clientGot ≠ []
  logs : m.outer.logs = wireLogs m.clientGot
  result : m.outer.result = (wireResults m.clientGot).head?

theorem poll_logs (s : StreamState) (t : Nat) : (s.poll t).1.logs = s.logs := by
  simp only [StreamState.poll]; split <;> (try split) <;> rfl

theorem head?_append_of_ne {α : Type} {l r : List α} (h : l ≠ []) : (l ++ r).head? = l.head? := by
  cases l with
  | nil => exact absurd rfl h
  | cons a l => rfl

theorem clean_step {acts : List RemoteAct} {a : RemoteAct} {m m' : RemoteRun} (hr : RemoteInv acts m) (h : CleanInv m)
    (ha : isFault a = false) (hs : m.step a = some m') : CleanInv m' := by
  cases a with
  | rpcOk =>
    simp only [RemoteRun.step] at hs
    split at hs <;> cases hs
    exact ⟨h.whole, by simp, by simp, h.logs, h.result⟩
  | srvRunOk =>
    simp only [RemoteRun.step] at hs
    split at hs <;> cases hs
    exact ⟨h.whole, by simp, h.over, h.logs, h.result⟩
  | runnerPush l =>
    simp only [RemoteRun.step] at hs
    split at hs <;> cases hs
    exact ⟨h.whole, h.dead, h.over, h.logs, h.result⟩
  | runnerEnd r =>
    simp only [RemoteRun.step] at hs
    split at hs <;> cases hs
    exact ⟨h.whole, h.dead, h.over, h.logs, h.result⟩
  | srvPoll =>
    simp only [RemoteRun.step] at hs
    (repeat' split at hs) <;> cases hs
    · rename_i hq _ _ _ _
      exact ⟨h.whole, by simp, h.over, h.logs, h.result⟩
    · exact ⟨h.whole, by simp, h.over, h.logs, h.result⟩
  | srvResult =>
    simp only [RemoteRun.step] at hs
    split at hs
    · rename_i he
      obtain ⟨r, hr'⟩ := Option.isSome_iff_exists.1 (hr.ended he).1
      rw [hr'] at hs
      cases hs
      exact ⟨h.whole, by simp, h.over, h.logs, h.result⟩
    · cases hs
  | srvSend =>
    simp only [RemoteRun.step] at hs
    (repeat' split at hs) <;> cases hs
    rename_i x hx _
    refine ⟨h.whole, fun hd => ?_, h.over, h.logs, h.result⟩
    cases x with
    | log l => simp [SrvPc.next] at hd
    | result r => exact ⟨r, by simp⟩
  | srvSendErr =>
    simp only [RemoteRun.step, h.whole] at hs
    split at hs <;> cases hs
  | xmit =>
    simp only [RemoteRun.step] at hs
    split at hs <;> cases hs
    exact ⟨h.whole, h.dead, h.over, h.logs, h.result⟩
  | rxDrop => cases ha
  | cliNext =>
    simp only [RemoteRun.step] at hs
    split at hs
    · rename_i hst
      split at hs
      · rename_i x rest hch
        cases hs
        refine ⟨h.whole, h.dead, fun hc => by simp [hst] at hc, ?_, ?_⟩
        · simp only [StreamState.accept_logs, h.logs, wireLogs_append]
        · simp only [StreamState.accept_result, h.result, wireResults_append]
          cases wireResults m.clientGot <;> simp
      · rename_i hch
        split at hs <;> cases hs
        rename_i hd
        refine ⟨h.whole, h.dead, fun _ => ?_, h.logs, h.result⟩
        obtain ⟨r, hm⟩ := h.dead hd.1
        obtain ⟨lost, this, hl⟩ := hr.fifo
        rw [hch, hd.2.1, hl hd.2.2, List.append_nil, List.append_nil, List.append_nil] at this
        rw [wireResults_mem]
        exact ⟨r, by simpa [this] using hm⟩
    · cases hs
  | setSignal v =>
    simp only [RemoteRun.step] at hs
    cases hs
    exact ⟨h.whole, h.dead, h.over, h.logs, h.result⟩
  | cliSignal =>
    simp only [RemoteRun.step] at hs
    (repeat' split at hs) <;> cases hs
    exact ⟨h.whole, h.dead, by simp, h.logs, h.result⟩
  | sigOk =>
    simp only [RemoteRun.step] at hs
    split at hs <;> cases hs
    exact ⟨h.whole, h.dead, by simp, h.logs, h.result⟩
  | check =>
    simp only [RemoteRun.step] at hs
    split at hs
    · rename_i hc
      have h1 := h.over (.inl hc)
      have h2 : m.outer.isEnded = true := by
        simp only [StreamState.isEnded, h.result]
        cases hw : wireResults m.clientGot with
        | nil => exact absurd hw h1
        | cons _ _ => rfl
      rw [if_pos h2] at hs
      cases hs
      exact ⟨h.whole, h.dead, fun _ => h1, h.logs, h.result⟩
    · cases hs
  | engPoll =>
    simp only [RemoteRun.step] at hs
    (repeat' split at hs) <;> cases hs
    · rename_i hp
      exact ⟨h.whole, h.dead, h.over, by rw [← h.logs, ← poll_logs m.outer 1, hp], by rw [← h.result, ← poll_result m.outer 1, hp]⟩
    · rename_i hp
      exact ⟨h.whole, h.dead, h.over, by rw [← h.logs, ← poll_logs m.outer 1, hp], by rw [← h.result, ← poll_result m.outer 1, hp]⟩
  | rpcErr e b => cases ha
  | srvRunErr => cases ha
  | srvCrash => cases ha
  | netErr e => cases ha
  | sigErr => cases ha

theorem clean_reach {acts : List RemoteAct} {m : RemoteRun} (h : RemoteReach acts m) (hf : FaultFree acts) : CleanInv m := by
  have : FaultFree acts → CleanInv m := by
    refine runs_induct (P := fun acts m => FaultFree acts → CleanInv m) ?_ ?_ h
    · exact fun _ => ⟨rfl, by simp, by simp, rfl, rfl⟩
    · intro acts a m m' hr ih hs hf
      exact clean_step (remote_reach hr) (ih fun x hx => hf x (by simp [hx])) (hf a (by simp)) hs
  exact this hf

/-- **C86** the same outcome.  If nothing fails, then when the engine sees the end of the stream of a remote step, the result it finds
is the one the runner on the server ended its stream with first; it has received every line the runner wrote before ending, followed
perhaps by some of those written afterwards, with types and in order, and nothing else.  (That is what the engine gets from a runner in its
own process: C17, C27, C29.) -/
theorem C86_same_outcome (acts : List RemoteAct) (m : RemoteRun) (h : RemoteReach acts m) (hf : FaultFree acts)
    (hd : m.engineDone = true) :
    m.outer.result = runnerResult acts ∧ m.outer.result ≠ none ∧
    runnerLogsBeforeEnd acts <+: m.engineGot ∧ m.engineGot <+: runnerLogs acts := by
  have hi := remote_reach h
  have hc := clean_reach h hf
  obtain ⟨h1, h2⟩ := hi.engine hd
  have hw : wireResults m.clientGot ≠ [] := by
    intro hw
    rw [hc.result, hw] at h1
    simp at h1
  obtain ⟨_, h4, _, h6, r, h7, h8⟩ := hi.last hw
  refine ⟨?_, ?_, ?_, ?_⟩
  · rw [hc.result, h8, ← inner_result h, h7]; rfl
  · rw [hc.result, h8]; simp
  · rw [h4] at h2; exact h6.trans h2
  · rw [hi.readOut.eq, hc.logs, h4, hi.readIn.eq, ← hi.innerLogs]
    exact (List.take_prefix _ _).trans (List.take_prefix _ _)

/-- How many moves the execution still needs. -/
def remoteWork (m : RemoteRun) : Nat :=
  5 * (m.inner.logs.length - m.inner.index) + 3 * m.queue.length + 2 * m.chan.length +
  (m.outer.logs.length - m.outer.index) +
  (match m.srv with
    | .idle | .starting => 7 | .reading => 6 | .ended => 5 | .sending (.log _) => 10 | .sending (.result _) => 4
    | .dead => 0) +
  (match m.cli with | .calling => 3 | .streaming => 2 | .signalling _ => 3 | .checking => 1 | .finished => 0) +
  (if m.sig.isNotified then 0 else 2) + (if m.engineDone then 0 else 1)

theorem remoteWork_step {m m' : RemoteRun} {a : RemoteAct} (hin : m.inner.index ≤ m.inner.logs.length)
    (hout : m.outer.index ≤ m.outer.logs.length) (ha : isFault a = false) (hp : m.cli = .checking → m.outer.isEnded = true)
    (hs : m.step a = some m') :
    remoteWork m' + (if isPipeline a then 1 else 0) ≤ remoteWork m + 5 * (pushOf a).length := by
  cases a with
  | rpcOk =>
    simp only [RemoteRun.step] at hs
    split at hs <;> cases hs
    rename_i hc
    simp only [remoteWork, hc, isPipeline, pushOf]
    simp
    omega
  | srvRunOk =>
    simp only [RemoteRun.step] at hs
    split at hs <;> cases hs
    rename_i hc
    simp only [remoteWork, hc, isPipeline, pushOf]
    simp
    omega
  | runnerPush l =>
    simp only [RemoteRun.step] at hs
    split at hs <;> cases hs
    simp only [remoteWork, isPipeline, pushOf, StreamState.push_logs, StreamState.push_index]
    simp
    omega
  | runnerEnd r =>
    simp only [RemoteRun.step] at hs
    split at hs <;> cases hs
    simp only [remoteWork, isPipeline, pushOf, StreamState.endSeq_logs, StreamState.endSeq_index]
    simp
  | srvPoll =>
    simp only [RemoteRun.step] at hs
    (repeat' split at hs) <;> cases hs
    · rename_i hc _ _ _ hpo
      obtain ⟨h1, rfl⟩ := StreamState.poll_item hpo
      have := (List.getElem?_eq_some_iff.1 h1).1
      simp only [remoteWork, hc, isPipeline, pushOf]
      simp
      omega
    · rename_i hc _ _ hpo
      obtain ⟨_, _, rfl⟩ := StreamState.poll_eos hpo
      simp only [remoteWork, hc, isPipeline, pushOf]
      simp
      omega
  | srvResult =>
    simp only [RemoteRun.step] at hs
    (repeat' split at hs) <;> cases hs
    · rename_i hc _ _ _
      simp only [remoteWork, hc, isPipeline, pushOf]
      simp
      omega
    · rename_i hc _ _
      simp only [remoteWork, hc, isPipeline, pushOf]
      simp
      omega
  | srvSend =>
    simp only [RemoteRun.step] at hs
    (repeat' split at hs) <;> cases hs
    rename_i x hc _
    cases x with
    | log l =>
      simp only [remoteWork, hc, isPipeline, pushOf, SrvPc.next]
      simp
      omega
    | result r =>
      simp only [remoteWork, hc, isPipeline, pushOf, SrvPc.next]
      simp
      omega
  | srvSendErr =>
    simp only [RemoteRun.step] at hs
    (repeat' split at hs) <;> cases hs
    rename_i x hc _
    cases x with
    | log l =>
      simp only [remoteWork, hc, isPipeline, pushOf, SrvPc.next]
      simp
      omega
    | result r =>
      simp only [remoteWork, hc, isPipeline, pushOf, SrvPc.next]
      simp
      omega
  | xmit =>
    simp only [RemoteRun.step] at hs
    split at hs <;> cases hs
    rename_i hq
    simp only [remoteWork, hq, isPipeline, pushOf]
    simp
    omega
  | rxDrop => cases ha
  | cliNext =>
    simp only [RemoteRun.step] at hs
    split at hs
    · rename_i hst
      split at hs
      · rename_i x rest hch
        cases hs
        simp only [remoteWork, hst, isPipeline, pushOf, hch, StreamState.accept_logs, StreamState.accept_index]
        have : (wireLogs [x]).length ≤ 1 := by cases x <;> simp
        simp
        omega
      · split at hs <;> cases hs
        simp only [remoteWork, hst, isPipeline, pushOf]
        simp
        omega
    · cases hs
  | setSignal v =>
    simp only [RemoteRun.step] at hs
    cases hs
    simp [remoteWork, isPipeline, pushOf, remote_set_isNotified]
  | cliSignal =>
    simp only [RemoteRun.step] at hs
    (repeat' split at hs) <;> cases hs
    rename_i hst _ _ _ hp
    obtain ⟨hn, _, rfl⟩ := sig_poll_some hp
    simp only [remoteWork, hst, hn, isPipeline, pushOf]
    simp
    omega
  | sigOk =>
    simp only [RemoteRun.step] at hs
    split at hs <;> cases hs
    rename_i hst
    simp only [remoteWork, hst, isPipeline, pushOf]
    simp
    omega
  | check =>
    simp only [RemoteRun.step] at hs
    split at hs
    · rename_i hc
      rw [if_pos (hp hc)] at hs
      cases hs
      simp only [remoteWork, hc, isPipeline, pushOf]
      simp
      omega
    · cases hs
  | engPoll =>
    simp only [RemoteRun.step] at hs
    (repeat' split at hs) <;> cases hs
    · rename_i hpo
      obtain ⟨h1, rfl⟩ := StreamState.poll_item hpo
      have := (List.getElem?_eq_some_iff.1 h1).1
      simp only [remoteWork, isPipeline, pushOf]
      simp
      omega
    · rename_i hd _ _ hpo
      obtain ⟨_, _, rfl⟩ := StreamState.poll_eos hpo
      simp only [remoteWork, isPipeline, pushOf, hd]
      simp
  | rpcErr e b => cases ha
  | srvRunErr => cases ha
  | srvCrash => cases ha
  | netErr e => cases ha
  | sigErr => cases ha

/-- **C86** the end is reached.  In any fault-free execution in which the runner on the server has ended its stream, some task can move
until the engine has seen the end, and one of them is not the transport unless nothing is in flight: the server's queue
being full, or a transport that holds a single message, is no deadlock.  The tasks and the transport together make at
most 13 moves plus five for each line the runner writes. -/
theorem C86_engine_sees_the_end (acts : List RemoteAct) (m : RemoteRun) (h : RemoteReach acts m) (hf : FaultFree acts) :
    (runnerResult acts ≠ none → m.engineDone = false → ∃ a m', isPipeline a = true ∧ (a = .xmit → m.chan = []) ∧ m.step a = some m') ∧
    (acts.filter isPipeline).length ≤ 13 + 5 * (runnerLogs acts).length := by
  constructor
  · intro hr hd
    have hi := remote_reach h
    have hc := clean_reach h hf
    have hres : m.inner.result.isSome := by
      rw [inner_result h]
      exact Option.isSome_iff_ne_none.2 hr
    -- while the server's task is not over, the client reads
    have hcalm : m.srv ≠ .idle → m.queue ≠ [] ∨ m.chan ≠ [] →
        ∃ a m', isPipeline a = true ∧ (a = .xmit → m.chan = []) ∧ m.step a = some m' := by
      intro hnidle hsome
      cases hcli : m.cli with
      | calling =>
        have := hi.cli
        simp only [CliOk, hcli] at this
        exact absurd this.2.2.2 hnidle
      | streaming =>
        cases hch : m.chan with
        | cons x xs => exact ⟨.cliNext, _, rfl, by simp, by simp only [RemoteRun.step, hcli, hch, if_true]; rfl⟩
        | nil =>
          cases hq : m.queue with
          | cons x xs => exact ⟨.xmit, _, rfl, fun _ => rfl, by simp only [RemoteRun.step, hq]; rfl⟩
          | nil => simp [hq, hch] at hsome
      | signalling v => exact ⟨.sigOk, _, rfl, by simp, by simp only [RemoteRun.step, hcli]; rfl⟩
      | checking =>
        have := (hi.last (hc.over (.inl hcli))).1
        rcases hsome with h | h
        · exact absurd this.2 h
        · exact absurd this.1 h
      | finished =>
        have := (hi.last (hc.over (.inr hcli))).1
        rcases hsome with h | h
        · exact absurd this.2 h
        · exact absurd this.1 h
    cases hsrv : m.srv with
    | idle =>
      have := (hi.idle hsrv).2.1
      rw [this] at hres
      cases hres
    | starting => exact ⟨.srvRunOk, _, rfl, by simp, by simp only [RemoteRun.step, hsrv, if_true]; rfl⟩
    | reading =>
      refine ⟨.srvPoll, ?_⟩
      simp only [RemoteRun.step, hsrv, if_true, isPipeline, true_and, StreamState.poll, hres, reduceCtorEq, false_implies]
      cases m.inner.logs[m.inner.index]? <;> simp
    | sending x =>
      by_cases hroom : m.queue.length < queueCapacity
      · refine ⟨.srvSend, { m with srv := .next x, queue := m.queue ++ [x], serverSent := m.serverSent ++ [x] }, rfl, by simp,
          ?_⟩
        simp only [RemoteRun.step, hsrv]
        rw [if_pos ⟨hc.whole, hroom⟩]
      · refine hcalm (by simp [hsrv]) (.inl fun hq => hroom ?_)
        rw [hq]; decide
    | ended =>
      obtain ⟨r, hr⟩ := Option.isSome_iff_exists.1 hres
      exact ⟨.srvResult, _, rfl, by simp, by simp only [RemoteRun.step, hsrv, if_true, hr]; rfl⟩
    | dead =>
      cases hcli : m.cli with
      | calling =>
        have := hi.cli
        simp only [CliOk, hcli] at this
        rw [hsrv] at this; simp at this
      | streaming =>
        by_cases hsome : m.queue ≠ [] ∨ m.chan ≠ []
        · exact hcalm (by simp [hsrv]) hsome
        · simp only [ne_eq, not_or, Classical.not_not] at hsome
          refine ⟨.cliNext, { m with cli := .checking }, rfl, by simp, ?_⟩
          simp only [RemoteRun.step, hcli, hsome.2, if_true]
          rw [if_pos ⟨hsrv, hsome.1, hc.whole⟩]
      | signalling v => exact ⟨.sigOk, _, rfl, by simp, by simp only [RemoteRun.step, hcli]; rfl⟩
      | checking =>
        refine ⟨.check, ?_⟩
        simp only [RemoteRun.step, hcli, if_true, isPipeline, true_and, reduceCtorEq, false_implies]
        split <;> exact ⟨_, rfl⟩
      | finished =>
        have hw := hc.over (.inr hcli)
        have hres : m.outer.result.isSome := by
          rw [hc.result]
          cases hh : wireResults m.clientGot with
          | nil => exact absurd hh hw
          | cons _ _ => rfl
        refine ⟨.engPoll, ?_⟩
        simp only [RemoteRun.step, hd, isPipeline, true_and, StreamState.poll, hres, reduceCtorEq, false_implies]
        cases m.outer.logs[m.outer.index]? <;> simp
  · have key : FaultFree acts → remoteWork m + (acts.filter isPipeline).length ≤ 13 + 5 * (runnerLogs acts).length := by
      refine runs_induct (step := RemoteRun.step) (s0 := {})
        (P := fun acts m => FaultFree acts →
          remoteWork m + (acts.filter isPipeline).length ≤ 13 + 5 * (runnerLogs acts).length) ?_ ?_ h
      · intro _; decide
      · intro acts a m1 m2 hr ih hs hf
        have hf' : FaultFree acts := fun x hx => hf x (by simp [hx])
        have ih := ih hf'
        have hi := remote_reach hr
        have hc := clean_reach hr hf'
        have hst := remoteWork_step hi.readIn.le hi.readOut.le (hf a (by simp)) (fun hcl => by
          have hw := hc.over (.inl hcl)
          simp only [StreamState.isEnded, hc.result]
          cases hh : wireResults m1.clientGot with
          | nil => exact absurd hh hw
          | cons _ _ => rfl) hs
        rw [runnerLogs_snoc, List.filter_append, List.length_append, List.length_append]
        by_cases hpa : isPipeline a = true
        · simp [hpa] at hst ⊢; omega
        · simp [hpa] at hst ⊢; omega
    have := key hf
    omega

-- the hypotheses are met: a cancelled run, from the moment the runner ended its stream to the end
open RemoteEx in
example : RemoteReach (cancelled.take 13) (after (cancelled.take 13)) ∧ FaultFree (cancelled.take 13) ∧
    (after (cancelled.take 13)).engineDone = false ∧ runnerResult (cancelled.take 13) = some .cancelled := by
  refine ⟨rfl, by unfold FaultFree; decide, by decide, rfl⟩
open RemoteEx in
example : RemoteReach cancelled (after cancelled) ∧ FaultFree cancelled ∧ (after cancelled).engineDone = true ∧
    (after cancelled).engineGot = [.ofLog "a", .ofError "b"] ∧
    runnerLogsBeforeEnd cancelled = [.ofLog "a", .ofError "b"] := by
  refine ⟨rfl, by unfold FaultFree; decide, by decide, by decide, by decide⟩

end AstroRun
