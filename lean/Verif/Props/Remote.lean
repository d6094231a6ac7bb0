import Verif.Lemmas.Remote
import Verif.Lemmas.Scheduler

/-! # C50–C56: the remote runner -/

namespace AstroRun
open Spec

/-- **C50** When the client's task for a remote step is over, the step has ended; its result is the first one
received from the server, and `Failed 1`, with an error log at the end, if none was received. -/
theorem C50_one_result (acts : List RemoteAct) (m : RemoteRun) (h : RemoteReach acts m) (hf : m.cli = .finished) :
    (∀ r rs, wireResults m.clientGot = r :: rs → m.outer.result = some r) ∧
    (wireResults m.clientGot = [] → m.outer.result = some (.failed 1) ∧
      ∃ own, OwnError own ∧ m.outer.logs = wireLogs m.clientGot ++ [own]) := by
  have hc := (remote_reach h).cli
  simp only [CliOk, hf] at hc
  refine ⟨fun r rs hr => by rw [hc.1, hr]; rfl, fun hr => ⟨by rw [hc.1, hr]; rfl, ?_⟩⟩
  rcases hc.2 with ⟨_, h2⟩ | h2
  · exact absurd hr h2
  · exact h2

theorem endSeq_keeps {s : StreamState} {r r' : RunResult} (h : s.result = some r) : (s.endSeq r').1.result = some r := by
  rw [StreamState.endSeq_result, h]; rfl

theorem remote_result_step {m m' : RemoteRun} {a : RemoteAct} {r : RunResult} (h : m.outer.result = some r)
    (hs : m.step a = some m') : m'.outer.result = some r := by
  cases a <;> simp only [RemoteRun.step] at hs <;> (repeat' split at hs) <;>
    simp only [Option.some.injEq, reduceCtorEq] at hs <;> subst hs <;> try exact h
  · simp [StreamState.fail_result, h]
  · simp [StreamState.fail_result, h]
  · simp [StreamState.accept_result, h]
  · simp [StreamState.fail_result, h]
  · simp [StreamState.fail_result, h]
  · rename_i hp
    obtain ⟨_, rfl⟩ := StreamState.poll_item hp
    exact h
  · rename_i hp
    obtain ⟨_, _, rfl⟩ := StreamState.poll_eos hp
    exact h

/-- **C50** A result, once there, never changes. -/
theorem C50_result_is_final (m m' : RemoteRun) (more : List RemoteAct) (r : RunResult)
    (hr : m.outer.result = some r) (hm : runs RemoteRun.step m more = some m') : m'.outer.result = some r :=
  runs_induct (P := fun _ m => m.outer.result = some r) hr (fun _ _ _ _ _ ih hs => remote_result_step ih hs) hm

/-- How much the client's task still has to do once the server's part is over. -/
def cliWork (m : RemoteRun) : Nat :=
  2 * m.queue.length + m.chan.length + match m.cli with
  | .calling => 0
  | .streaming => 2 + (if m.sig.isNotified then 0 else 2)
  | .signalling _ => 3 + (if m.sig.isNotified then 0 else 2)
  | .checking => 1
  | .finished => 0

theorem remote_set_isNotified (s : SigState) (v : Signal) : (s.set v).state.isNotified = s.isNotified := by
  simp only [SigState.set]; split <;> rfl

theorem sig_poll_some {s s' : SigState} {t : Nat} {v : Signal} (h : s.poll t = (s', some v)) :
    s.isNotified = false ∧ s.signal = some v ∧ s' = { s with isNotified := true } := by
  simp only [SigState.poll] at h
  split at h
  · simp at h
  · rename_i hn
    split at h <;> simp at h
    rename_i v' hv
    exact ⟨by simpa using hn, by rw [hv, h.2], h.1.symm⟩

theorem cliWork_step {m m' : RemoteRun} {a : RemoteAct} (hd : m.srv = .dead) (hc : m.cli ≠ .calling)
    (hs : m.step a = some m') : m'.srv = .dead ∧ m'.cli ≠ .calling ∧
      cliWork m' + (if isClientMove a || a = .xmit then 1 else 0) ≤ cliWork m := by
  cases a with
  | cliNext =>
    simp only [RemoteRun.step] at hs
    split at hs <;> try simp only [reduceCtorEq] at hs
    rename_i hst
    split at hs
    · rename_i hch
      simp only [Option.some.injEq] at hs
      subst hs
      refine ⟨hd, hc, ?_⟩
      simp only [cliWork, hst, hch, isClientMove, Bool.true_or, if_true, List.length_cons]
      omega
    · rename_i hch
      split at hs <;> simp only [Option.some.injEq, reduceCtorEq] at hs
      subst hs
      refine ⟨hd, by simp, ?_⟩
      simp only [cliWork, hst, isClientMove, Bool.true_or, if_true]
      omega
  | xmit =>
    simp only [RemoteRun.step] at hs
    split at hs <;> simp only [Option.some.injEq, reduceCtorEq] at hs
    rename_i hq
    subst hs
    refine ⟨hd, hc, ?_⟩
    simp only [cliWork, hq, List.length_cons, List.length_append, List.length_nil]
    simp
    omega
  | netErr e =>
    simp only [RemoteRun.step] at hs
    split at hs <;> simp only [Option.some.injEq, reduceCtorEq] at hs
    rename_i hst
    subst hs
    refine ⟨hd, by simp, ?_⟩
    simp only [cliWork, hst, isClientMove, Bool.true_or, if_true]
    omega
  | cliSignal =>
    simp only [RemoteRun.step] at hs
    split at hs <;> try simp only [reduceCtorEq] at hs
    rename_i hst
    split at hs <;> simp only [Option.some.injEq, reduceCtorEq] at hs
    rename_i hp
    obtain ⟨hn, _, rfl⟩ := sig_poll_some hp
    subst hs
    refine ⟨hd, by simp, ?_⟩
    simp only [cliWork, hst, hn, isClientMove, Bool.true_or, if_true, Bool.false_eq_true, if_false]
    omega
  | sigOk =>
    simp only [RemoteRun.step] at hs
    split at hs <;> simp only [Option.some.injEq, reduceCtorEq] at hs
    rename_i v hst
    subst hs
    refine ⟨hd, by simp, ?_⟩
    simp only [cliWork, hst, isClientMove, Bool.true_or, if_true]
    omega
  | sigErr =>
    simp only [RemoteRun.step] at hs
    split at hs <;> simp only [Option.some.injEq, reduceCtorEq] at hs
    rename_i v hst
    subst hs
    refine ⟨hd, by simp, ?_⟩
    simp only [cliWork, hst, isClientMove, Bool.true_or, if_true]
    omega
  | check =>
    simp only [RemoteRun.step] at hs
    split at hs <;> try simp only [reduceCtorEq] at hs
    rename_i hst
    split at hs <;> simp only [Option.some.injEq] at hs <;> subst hs <;>
      exact ⟨hd, by simp, by simp [cliWork, hst, isClientMove]⟩
  | srvSend => simp [RemoteRun.step, hd] at hs
  | srvSendErr => simp [RemoteRun.step, hd] at hs
  | rxDrop => simp [RemoteRun.step, hd] at hs
  | rpcOk => simp [RemoteRun.step, hc] at hs
  | rpcErr e b => simp [RemoteRun.step, hc] at hs
  | setSignal v =>
    simp only [RemoteRun.step, Option.some.injEq] at hs
    subst hs
    refine ⟨hd, hc, ?_⟩
    simp [cliWork, remote_set_isNotified, isClientMove]
  | _ =>
    simp only [RemoteRun.step] at hs
    (repeat' split at hs) <;> simp only [Option.some.injEq, reduceCtorEq] at hs <;> subst hs <;>
      first
      | exact ⟨hd, hc, Nat.le_refl _⟩
      | exact ⟨rfl, hc, Nat.le_refl _⟩
      | (rename_i h1 _ _; rw [hd] at h1; cases h1)
      | (rename_i h1; rw [hd] at h1; cases h1)
      | (rename_i h1 _; rw [hd] at h1; cases h1)
      | (rename_i h1 _ _ _; rw [hd] at h1; cases h1)
      | (rename_i h1 _ _ _ _; rw [hd] at h1; cases h1)

/-- **C50** Once the server's side of the call is over, the client's task comes to its end: as long as it is not
finished, it can move or a message for it is on its way; and together with the transport it makes at most as many moves
as there are messages in flight, plus twice those still queued on the server, plus five, whatever else happens in
between. -/
theorem C50_ends_after_the_stream (acts : List RemoteAct) (m : RemoteRun) (h : RemoteReach acts m)
    (hd : m.srv = .dead) (more : List RemoteAct) (m' : RemoteRun) (hm : runs RemoteRun.step m more = some m') :
    (more.filter fun a => isClientMove a || a = .xmit).length ≤ m.chan.length + 2 * m.queue.length + 5 ∧
    (m'.cli ≠ .finished → ∃ a m'', (isClientMove a = true ∨ a = .xmit ∧ m'.chan = []) ∧ m'.step a = some m'') := by
  have hc : m.cli ≠ .calling := by
    intro hc
    have := (remote_reach h).cli
    simp only [CliOk, hc] at this
    rw [hd] at this; simp at this
  have key : m'.srv = .dead ∧ m'.cli ≠ .calling ∧
      cliWork m' + (more.filter fun a => isClientMove a || a = .xmit).length ≤ cliWork m := by
    refine runs_induct (step := RemoteRun.step) (s0 := m)
      (P := fun more m' => m'.srv = .dead ∧ m'.cli ≠ .calling ∧
        cliWork m' + (more.filter fun a => isClientMove a || a = .xmit).length ≤ cliWork m)
      ⟨hd, hc, by simp⟩ ?_ hm
    intro as a s s' _ ih hs
    have := cliWork_step ih.1 ih.2.1 hs
    refine ⟨this.1, this.2.1, ?_⟩
    have h3 := this.2.2
    have h4 := ih.2.2
    rw [List.filter_append, List.length_append]
    by_cases ha : (isClientMove a || decide (a = .xmit)) = true
    · rw [if_pos ha] at h3
      simp only [List.filter_cons, ha, if_true, List.filter_nil, List.length_cons, List.length_nil]
      omega
    · rw [if_neg ha] at h3
      simp only [List.filter_cons, ha, if_false, List.filter_nil, List.length_nil, Bool.false_eq_true]
      omega
  refine ⟨?_, fun hnf => ?_⟩
  · have h1 : cliWork m ≤ m.chan.length + 2 * m.queue.length + 5 := by
      unfold cliWork
      split <;> (try split) <;> omega
    omega
  · cases hcli : m'.cli with
    | calling => exact absurd hcli key.2.1
    | finished => exact absurd hcli hnf
    | streaming =>
      cases hch : m'.chan with
      | cons x xs => exact ⟨.cliNext, _, .inl rfl, by simp only [RemoteRun.step, hcli, hch, if_true]; rfl⟩
      | nil =>
        cases hq : m'.queue with
        | cons x xs => exact ⟨.xmit, _, .inr ⟨rfl, rfl⟩, by simp only [RemoteRun.step, hq]; rfl⟩
        | nil =>
          cases hdr : m'.dropped with
          | false =>
            refine ⟨.cliNext, { m' with cli := .checking }, .inl rfl, ?_⟩
            simp only [RemoteRun.step, hcli, hch, if_true]
            rw [if_pos ⟨key.1, hq, hdr⟩]
          | true => exact ⟨.netErr "", _, .inl rfl, by simp only [RemoteRun.step, hcli, if_true]; rfl⟩
    | signalling v => exact ⟨.sigOk, _, .inl rfl, by simp only [RemoteRun.step, hcli]; rfl⟩
    | checking =>
      refine ⟨.check, ?_⟩
      simp only [RemoteRun.step, hcli, if_true, isClientMove, true_or, true_and]
      split <;> exact ⟨_, rfl⟩

namespace RemoteEx
/-- A run that is cancelled by the engine; the runner writes two lines, the second after the cancel, and ends. -/
def cancelled : List RemoteAct :=
  [.rpcOk, .srvRunOk, .runnerPush (.ofLog "a"), .srvPoll, .srvSend, .xmit, .cliNext, .engPoll, .setSignal .cancel,
   .cliSignal, .sigOk, .runnerPush (.ofError "b"), .runnerEnd .cancelled, .srvPoll, .srvSend, .srvPoll, .srvResult, .xmit,
   .srvSend, .cliNext, .xmit, .cliNext, .cliNext, .check, .engPoll, .engPoll]
/-- The server dies after one line. -/
def crashed : List RemoteAct :=
  [.rpcOk, .srvRunOk, .runnerPush (.ofLog "a"), .srvPoll, .srvSend, .srvCrash, .xmit, .cliNext, .cliNext, .check, .engPoll,
   .engPoll, .engPoll]
/-- The state after a schedule. -/
def after (acts : List RemoteAct) : RemoteRun := (runs RemoteRun.step {} acts).getD {}
end RemoteEx

open RemoteEx in
example : RemoteReach cancelled (after cancelled) ∧ (after cancelled).cli = .finished ∧
    (after cancelled).outer.result = some .cancelled ∧ wireResults (after cancelled).clientGot = [.cancelled] ∧
    (after cancelled).sigSent = [.cancel] := by
  refine ⟨?_, by decide, by decide, by decide, by decide⟩
  unfold RemoteReach; rfl

open RemoteEx in
example : RemoteReach crashed (after crashed) ∧ (after crashed).cli = .finished ∧
    (after crashed).outer.result = some (.failed 1) ∧ wireResults (after crashed).clientGot = [] ∧
    (after crashed).engineGot = [.ofLog "a", .ofError "Failed to run"] := by
  refine ⟨?_, by decide, by decide, by decide, by decide⟩
  unfold RemoteReach; rfl

open RemoteEx in
example : RemoteReach (crashed.take 6) (after (crashed.take 6)) ∧ (after (crashed.take 6)).srv = .dead ∧
    (after (crashed.take 6)).queue = [.log (.ofLog "a")] := by
  refine ⟨?_, by decide, by decide⟩
  unfold RemoteReach; rfl

/-- The scheduler only returns runners it was offered. -/
theorem schedule_mem {s : SchedState} {rs : List RunnerMeta} {c : Command} {s' : SchedState} {r : RunnerMeta}
    (h : s.schedule rs c = (s', some r)) : r ∈ rs := by
  simp only [SchedState.schedule] at h
  split at h
  · rename_i r' hr
    simp only [Prod.mk.injEq, Option.some.injEq] at h
    split at hr
    · rename_i r'' hp
      cases hl : s.jobRunners.get? c.id.jobId with
      | none => rw [hl] at hp; simp at hp
      | some last =>
        rw [hl] at hp
        cases hr
        rw [← h.2]
        exact (findPinned_spec hp).1
    · rw [← h.2]
      exact (pickRunner_canRun hr).1
  · simp at h

/-- The table of clients: each under its own id, one per id. -/
def GoodClients (cs : AMap Id RunnerMeta) : Prop := cs.keys.Nodup ∧ ∀ id md, (id, md) ∈ cs → md.id = id

theorem connectAll_good {v : String} {cs : AMap Id RunnerMeta} (h : GoodClients cs) (as : List (Except Error RunnerMeta)) :
    GoodClients (connectAll v cs as) := by
  induction as generalizing cs with
  | nil => exact h
  | cons a as ih =>
    simp only [connectAll]
    split
    · rename_i id md hc
      split
      · exact ih h
      · refine ih ⟨AMap.nodup_keys_insert h.1 _ _, fun id' md' hm => ?_⟩
        rcases AMap.mem_insert.1 hm with he | ⟨hm, _⟩
        · cases he
          unfold connect at hc
          split at hc
          · cases hc
          · split at hc <;> cases hc
            rfl
        · exact h.2 _ _ hm
    · exact ih h

/-- **C50** Dispatch: with connected runners `answers`, whatever was scheduled before, `run` either ends the step at
once with `Failed 1` and the single log "No runner available", or starts it on one of the connected runners; it
never panics. -/
theorem C50_dispatch (version : String) (answers : List (Except Error RunnerMeta)) (sched : SchedState)
    (emitted : List Event) (c : Command) :
    let cl : RemoteClient := { clients := connectAll version [] answers, sched := sched, emitted := emitted }
    ((cl.run c).2 = .refused { logs := [Log.ofError "No runner available"], result := some (.failed 1) }) ∨
    (∃ r, (cl.run c).2 = .spawned r ∧ .ok r ∈ answers ∧ r ∈ cl.clients.map Prod.snd) := by
  intro cl
  have hg : GoodClients cl.clients := connectAll_good ⟨by simp [AMap.keys], by simp⟩ _
  have hmem : ∀ cs as, ∀ e ∈ connectAll version cs as, e ∈ cs ∨ .ok e.2 ∈ as := by
    intro cs as
    induction as generalizing cs with
    | nil => intro e he; exact .inl he
    | cons a as ih =>
      intro e he
      simp only [connectAll] at he
      split at he
      · rename_i id md hc
        split at he
        · rcases ih _ _ he with h | h
          · exact .inl h
          · exact .inr (List.mem_cons_of_mem _ h)
        · rcases ih _ _ he with h | h
          · rcases AMap.mem_insert.1 h with h | ⟨h, _⟩
            · subst h
              unfold connect at hc
              split at hc
              · cases hc
              · split at hc <;> cases hc
                exact .inr (by simp)
            · exact .inl h
          · exact .inr (List.mem_cons_of_mem _ h)
      · rcases ih _ _ he with h | h
        · exact .inl h
        · exact .inr (List.mem_cons_of_mem _ h)
  simp only [RemoteClient.run]
  split
  · exact .inl rfl
  · rename_i s r hr
    have hr' := schedule_mem hr
    obtain ⟨⟨id, md⟩, he, hmd⟩ := List.mem_map.1 hr'
    simp only at hmd
    subst hmd
    have hid := hg.2 _ _ he
    have hget := AMap.get?_of_mem hg.1 he
    rw [← hid] at hget
    rw [hget]
    refine .inr ⟨md, rfl, ?_, List.mem_map.2 ⟨_, he, rfl⟩⟩
    rcases hmem _ _ _ he with h | h
    · simp at h
    · exact h

namespace RemoteEx
/-- Two docker runners, a failing connection, one of another version, and a second server with the id of the
first. -/
def answers : List (Except Error RunnerMeta) :=
  [.ok { id := "a", version := "1" }, .error (.internalRuntimeError "refused"), .ok { id := "x", version := "0" },
   .ok { id := "b", version := "1", supportHost := false }, .ok { id := "a", version := "1", arch := "arm" }]
/-- The client connected to them. -/
def client : RemoteClient := { clients := connectAll "1" [] answers }
/-- Step `n` of job `j`. -/
def step (j : Id) (n : Nat) : Command := { id := ⟨"w", j, n⟩ }
/-- Its completion. -/
def done (j : Id) (n : Nat) : Event := .stepCompleted ⟨⟨"w", j, n⟩, .succeeded, some 0, none, none⟩
end RemoteEx

example : (RemoteEx.client.run (RemoteEx.step "j" 0)).2 = .spawned { id := "b", version := "1", supportHost := false } ∧
    (RemoteEx.client.run { RemoteEx.step "j" 0 with container := some ⟨"host/mac", none, none⟩ }).2 =
      .refused { logs := [Log.ofError "No runner available"], result := some (.failed 1) } := by
  decide

/-- **C51** What the engine gets for a remote step are the first lines the runner on the server wrote, each with its
type, in order, followed by at most one error line of the client itself.  If the server's result arrived and the
engine has seen the end of the stream, nothing the runner wrote before ending its stream is missing. -/
theorem C51_logs_preserved (acts : List RemoteAct) (m : RemoteRun) (h : RemoteReach acts m) :
    (∃ k own, m.engineGot = (runnerLogs acts).take k ++ own ∧ (own = [] ∨ ∃ l, own = [l] ∧ OwnError l)) ∧
    (m.engineDone = true → wireResults m.clientGot ≠ [] → runnerLogsBeforeEnd acts <+: m.engineGot) := by
  have hi := remote_reach h
  refine ⟨?_, fun hd hr => ?_⟩
  · -- what the client received is a prefix of what the runner wrote
    have hpre : wireLogs m.clientGot <+: runnerLogs acts := by
      have h1 := hi.logs_prefix
      have h2 : m.serverGot <+: runnerLogs acts := by
        rw [hi.readIn.eq, hi.innerLogs]
        exact List.take_prefix _ _
      exact h1.trans h2
    have hlogs : ∃ own, m.outer.logs = wireLogs m.clientGot ++ own ∧ (own = [] ∨ ∃ l, own = [l] ∧ OwnError l) := by
      have hc := hi.cli
      unfold CliOk at hc
      split at hc
      · exact ⟨[], by rw [hc.1, hc.2.1]; rfl, .inl rfl⟩
      · exact ⟨[], by rw [hc.1]; simp, .inl rfl⟩
      · exact ⟨[], by rw [hc.1]; simp, .inl rfl⟩
      · rcases hc with ⟨h1, _⟩ | ⟨l, hl, h1, _⟩
        · exact ⟨[], by rw [h1]; simp, .inl rfl⟩
        · exact ⟨[l], h1, .inr ⟨l, rfl, hl⟩⟩
      · rcases hc.2 with ⟨h1, _⟩ | ⟨l, hl, h1⟩
        · exact ⟨[], by rw [h1]; simp, .inl rfl⟩
        · exact ⟨[l], h1, .inr ⟨l, rfl, hl⟩⟩
    obtain ⟨own, ho, hown⟩ := hlogs
    obtain ⟨t, ht⟩ := hpre
    rw [hi.readOut.eq, ho, List.take_append]
    refine ⟨min m.outer.index (wireLogs m.clientGot).length,
      own.take (m.outer.index - (wireLogs m.clientGot).length), ?_, ?_⟩
    · rw [← ht, List.take_append_of_le_length (Nat.min_le_right _ _), ← List.take_take,
        List.take_of_length_le (Nat.le_refl (wireLogs m.clientGot).length)]
    · rcases hown with rfl | ⟨l, rfl, hl⟩
      · exact .inl (by simp)
      · cases hk : m.outer.index - (wireLogs m.clientGot).length with
        | zero => exact .inl (by simp)
        | succ n => exact .inr ⟨l, by simp, hl⟩
  · obtain ⟨_, h2, _, h4, _⟩ := hi.last hr
    rw [← h2] at h4
    exact h4.trans (hi.engine hd).2

open RemoteEx in
example : RemoteReach cancelled (after cancelled) ∧ (after cancelled).engineDone = true ∧
    wireResults (after cancelled).clientGot ≠ [] ∧
    runnerLogsBeforeEnd cancelled = [.ofLog "a", .ofError "b"] ∧
    (after cancelled).engineGot = [.ofLog "a", .ofError "b"] := by
  refine ⟨?_, by decide, by decide, by decide, by decide⟩
  unfold RemoteReach; rfl

/-! ## C52 -/

/-- Three steps of job `j`, all of which complete, as does the job; then a step of job `k`, still running. -/
def RemoteEx.leak : List RemoteOp :=
  [.run (RemoteEx.step "j" 0), .event (RemoteEx.done "j" 0), .run (RemoteEx.step "j" 1), .event (RemoteEx.done "j" 1),
   .event (.jobCompleted ⟨⟨"w", "j"⟩, .succeeded, none, none, []⟩), .run (RemoteEx.step "k" 0)]

/-- **C52 is false of the code**: runner `b` has completed everything it was given and is idle, runner `a` is busy, both
can run the step, yet the next step is given to `a`: completions never reach the scheduler. -/
theorem C52_refuted : ∃ (cl : RemoteClient) (ops : List RemoteOp) (c : Command) (a b : RunnerMeta),
    (∃ version answers, cl = { clients := connectAll version [] answers }) ∧
    a ∈ cl.clients.map Prod.snd ∧ b ∈ cl.clients.map Prod.snd ∧ a.supportDocker = true ∧ b.supportDocker = true ∧
    (∀ n ∈ (cl.ops ops).sched.jobRunners, n.1 ≠ c.id.jobId) ∧
    load (remoteTrace cl ops) b.id = 0 ∧ load (remoteTrace cl ops) a.id = 1 ∧
    ((cl.ops ops).run c).2 = .spawned a :=
  ⟨RemoteEx.client, RemoteEx.leak, RemoteEx.step "l" 0, { id := "a", version := "1" },
    { id := "b", version := "1", supportHost := false }, ⟨"1", RemoteEx.answers, rfl⟩, by decide, by decide, rfl, rfl,
    by decide, by decide, by decide, by decide⟩

/-- The number of times the engine's calls started a step on runner `r`. -/
def started (tr : List SchedEvent) (r : Id) : Nat :=
  (tr.filter fun | .scheduled _ r' => r'.id == r | _ => false).length

/-- **C52**, what the code does instead: in every history, what the scheduler takes for the load of a runner is the number
of steps it was ever given, completed or not. -/
theorem C52_load_never_released (version : String) (answers : List (Except Error RunnerMeta)) (ops : List RemoteOp)
    (r : Id) :
    let cl : RemoteClient := { clients := connectAll version [] answers }
    ((cl.ops ops).sched.runsCount.get? r).getD 0 = (started (remoteTrace cl ops) r : Int) := by
  intro cl
  have hg : GoodClients cl.clients := connectAll_good ⟨by simp [AMap.keys], by simp⟩ _
  have key : ∀ (ops : List RemoteOp) (cl : RemoteClient), GoodClients cl.clients →
      ((cl.ops ops).sched.runsCount.get? r).getD 0 =
        (cl.sched.runsCount.get? r).getD 0 + (started (remoteTrace cl ops) r : Int) := by
    intro ops
    induction ops with
    | nil => intro cl _; simp [RemoteClient.ops, remoteTrace, started]
    | cons o ops ih =>
      intro cl hg
      have hcons : cl.ops (o :: ops) = (cl.op o).ops ops := rfl
      rw [hcons]
      cases o with
      | event e =>
        have := ih (cl.op (.event e)) hg
        have hs : (cl.op (.event e)).sched = cl.sched := rfl
        rw [this, hs]
        cases e <;> simp [remoteTrace, started]
      | run c =>
        have hop : cl.op (.run c) = (cl.run c).1 := rfl
        have hcl : (cl.run c).1.clients = cl.clients := by
          simp only [RemoteClient.run]
          split
          · rfl
          · split <;> rfl
        rw [ih _ (by rw [hop, hcl]; exact hg)]
        simp only [remoteTrace, hop]
        rcases hsch : cl.sched.schedule (cl.clients.map Prod.snd) c with ⟨s, o⟩
        cases o with
        | none =>
          have hs : s = cl.sched := by
            simp only [SchedState.schedule] at hsch
            split at hsch <;> simp at hsch
            exact hsch.symm
          simp [RemoteClient.run, hsch, hs]
        | some rr =>
          have hmem := schedule_mem hsch
          obtain ⟨⟨id, md⟩, he, hmd⟩ := List.mem_map.1 hmem
          simp only at hmd
          subst hmd
          have hget := AMap.get?_of_mem hg.1 he
          rw [← hg.2 _ _ he] at hget
          have hs : s = cl.sched.commit c md := by
            simp only [SchedState.schedule] at hsch
            split at hsch <;> simp at hsch
            obtain ⟨h1, h2⟩ := hsch
            rw [← h1, h2]
          simp only [RemoteClient.run, hsch, hget, hs, SchedState.commit, AMap.get?_insert, started,
            List.filter_append, List.length_append]
          by_cases hid : md.id = r
          · simp [hid]; omega
          · simp [hid]
  have := key ops cl hg
  simpa [cl] using this

example : remoteTrace RemoteEx.client RemoteEx.leak ≠ [] ∧
    started (remoteTrace RemoteEx.client RemoteEx.leak) "b" = 2 ∧
    load (remoteTrace RemoteEx.client RemoteEx.leak) "b" = 0 := by decide

end AstroRun
