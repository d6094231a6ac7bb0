import Verif.Lemmas.RemoteStackSignals
import Verif.Props.RemoteTransparent
import Verif.Props.RemoteServer
import Verif.Props.JobMachine
import Verif.Props.Runner

/-! # C95: a job on the remote runner, end to end

Schedules are arbitrary interleavings of the engine's task, API users, the clock, and for every step handed to the remote runner of the
client's task, the network, the server's task, the runner there and the notifications sent to the servers, with all their failures. -/

namespace AstroRun
open Spec

/-! ## Lemmas about one call -/

theorem filter_rel (na : List RemoteAct) :
    runnerResult (na.filter notEngine) = runnerResult na ∧ runnerLogs (na.filter notEngine) = runnerLogs na ∧
    runnerLogsBeforeEnd (na.filter notEngine) = runnerLogsBeforeEnd na ∧
    (FaultFree (na.filter notEngine) ↔ FaultFree na) := by
  refine ⟨?_, ?_, ?_, fun h a ha => ?_, fun h a ha => h a (List.mem_filter.1 ha).1⟩
  · induction na with
    | nil => rfl
    | cons a na ih => cases a <;> simp [notEngine, List.filter_cons, runnerResult, ih]
  · induction na with
    | nil => rfl
    | cons a na ih =>
      simp only [runnerLogs] at ih
      cases a <;> simp [notEngine, List.filter_cons, runnerLogs, ih]
  · induction na with
    | nil => rfl
    | cons a na ih =>
      simp only [runnerLogsBeforeEnd, runnerLogs] at ih
      cases a <;> simp [notEngine, List.filter_cons, List.takeWhile_cons, runnerLogsBeforeEnd, runnerLogs, notEnd, ih]
  · cases hn : notEngine a with
    | true => exact h a (List.mem_filter.2 ⟨ha, hn⟩)
    | false => cases a <;> simp [notEngine, isFault] at hn ⊢

/-- What the stream given to the engine holds, in terms of what the runner on the server wrote. -/
theorem call_stream {na : List RemoteAct} {n : RemoteRun} (h : RemoteReach na n) :
    ∃ k own, n.outer.logs = (runnerLogs na).take k ++ own ∧ (own = [] ∨ ∃ l, own = [l] ∧ OwnError l) ∧
      ∀ res, n.outer.result = some res → runnerResult na = some res ∨ res = .failed 1 ∧ own ≠ [] := by
  have hi := remote_reach h
  have hpre : ∃ k, wireLogs n.clientGot = (runnerLogs na).take k := by
    obtain ⟨t, ht⟩ := hi.logs_prefix
    refine ⟨(wireLogs n.clientGot).length, ?_⟩
    have h1 : n.serverGot = (runnerLogs na).take n.inner.index := by rw [← hi.innerLogs]; exact hi.readIn.eq
    have : wireLogs n.clientGot <+: runnerLogs na :=
      (List.IsPrefix.trans ⟨t, ht⟩ (by rw [h1]; exact List.take_prefix _ _))
    exact (List.prefix_iff_eq_take.1 this)
  obtain ⟨k, hk⟩ := hpre
  have hhead : ∀ r, (wireResults n.clientGot).head? = some r → runnerResult na = some r := by
    intro r hr
    obtain ⟨_, _, _, _, r', h1, h2⟩ := hi.last (by intro e; rw [e] at hr; cases hr)
    rw [h2] at hr
    cases hr
    rw [← inner_result h]; exact h1
  have hcli := hi.cli
  simp only [CliOk] at hcli
  have plain : n.outer.logs = wireLogs n.clientGot ∧ n.outer.result = (wireResults n.clientGot).head? →
      ∃ k own, n.outer.logs = (runnerLogs na).take k ++ own ∧ (own = [] ∨ ∃ l, own = [l] ∧ OwnError l) ∧
      ∀ res, n.outer.result = some res → runnerResult na = some res ∨ res = .failed 1 ∧ own ≠ [] := fun ⟨g1, g2⟩ =>
    ⟨k, [], by rw [g1, hk, List.append_nil], .inl rfl, fun res hr => .inl (hhead res (by rw [← g2]; exact hr))⟩
  have own : ∀ own, OwnError own → n.outer.logs = wireLogs n.clientGot ++ [own] →
      n.outer.result = some ((wireResults n.clientGot).head?.getD (.failed 1)) →
      ∃ k own, n.outer.logs = (runnerLogs na).take k ++ own ∧ (own = [] ∨ ∃ l, own = [l] ∧ OwnError l) ∧
      ∀ res, n.outer.result = some res → runnerResult na = some res ∨ res = .failed 1 ∧ own ≠ [] := by
    intro o g1 g2 g3
    refine ⟨k, [o], by rw [g2, hk], .inr ⟨o, rfl, g1⟩, fun res hr => ?_⟩
    rw [g3, Option.some.injEq] at hr
    cases hh : (wireResults n.clientGot).head? with
    | none => rw [hh] at hr; exact .inr ⟨hr.symm, by simp⟩
    | some r => rw [hh] at hr; simp only [Option.getD_some] at hr; subst hr; exact .inl (hhead _ hh)
  split at hcli
  · exact ⟨0, [], by rw [hcli.2.1]; rfl, .inl rfl, fun res hr => by rw [hcli.2.2.1] at hr; cases hr⟩
  · exact plain hcli
  · exact plain hcli
  · rcases hcli with g | ⟨o, g1, g2, g3⟩
    · exact plain g
    · exact own o g1 g2 g3
  · obtain ⟨g, ⟨g1, g2⟩ | ⟨o, g1, g2⟩⟩ := hcli
    · refine plain ⟨g1, ?_⟩
      rw [g]
      cases hh : wireResults n.clientGot with
      | nil => exact absurd hh g2
      | cons r rs => rfl
    · exact own o g1 g2 g

/-- A signal the client's task has seen was sent, or the task does not listen any more. -/
theorem seen_reach {na : List RemoteAct} {n : RemoteRun} (h : RemoteReach na n) :
    n.sig.isNotified = true → n.sigSent ≠ [] ∨ (∃ v, n.cli = .signalling v) ∨ n.cli = .checking ∨ n.cli = .finished := by
  refine runs_induct (P := fun _ n => n.sig.isNotified = true → n.sigSent ≠ [] ∨ (∃ v, n.cli = .signalling v) ∨ n.cli = .checking ∨ n.cli = .finished)
    (by intro h; cases h) ?_ h
  intro acts a n n' hr ih hs
  cases a with
  | setSignal v =>
    simp only [RemoteRun.step, Option.some.injEq] at hs
    subst hs
    simp only [set_notified]
    exact ih
  | _ => simp only [RemoteRun.step] at hs <;> (repeat' split at hs) <;> cases hs <;> simp_all

theorem executing_pc {s : RemoteStack} {st : Step} {i : Nat} {x : RemoteExec} (h : ExecutingRemotely s st i x) :
    s.eng.pc.reading = true ∧ runningStep s.eng.pc = some st := by
  rcases h.1 with ⟨t0, e⟩ | ⟨t0, d, e⟩ <;> rw [e] <;> exact ⟨rfl, rfl⟩

/-- The move that ends a step is a move of the engine. -/
theorem rend_step {job : Job} {t : Time} {acts : List RemoteStackAct} {s s' : RemoteStack} {a : RemoteStackAct}
    (h : RStackInv job t acts s) (hr : s.eng.pc.reading = true) (hs : s.step a = some s') (hend : s'.eng.pc = .next) :
    ∃ st t0 d res, s.eng.pc = .select st t0 d ∧ s.eng.stream.result = some res ∧
      s.eng.stream.logs.length ≤ s.eng.stream.index ∧ s'.eng = s.eng.stepDone (stepResult st.id res t0 s.eng.now) := by
  have stay : s'.eng.pc = s.eng.pc → False := by
    intro e; rw [hend] at e; rw [← e] at hr; cases hr
  cases a with
  | eng a =>
    simp only [RemoteStack.step] at hs
    split at hs
    · cases hs
    · rename_i hb
      simp only [Option.map_eq_some_iff] at hs
      obtain ⟨m, hm, rfl⟩ := hs
      rcases eng_from_reading (by simpa using hb) hr hm with ⟨h1, _⟩ | ⟨st, t0, d, res, _, h2, h3, h4, h5⟩
      · simp only at hend; rw [hend] at h1; cases h1
      · exact ⟨st, t0, d, res, h2, h3, h4, h5⟩
  | dispatched sv =>
    simp only [RemoteStack.step] at hs
    split at hs
    · rename_i hp; rw [hp] at hr; cases hr
    · cases hs
  | noRunner =>
    simp only [RemoteStack.step] at hs
    split at hs
    · rename_i hp; rw [hp] at hr; cases hr
    · cases hs
  | net i a =>
    exfalso; apply stay
    obtain ⟨x, n, _, _, _, hcase⟩ := rnet_step hs
    have := (moved_eng s i x n).2.2
    rcases hcase with ⟨_, rfl⟩ | ⟨v, _, _, rfl⟩ | ⟨_, _, _, rfl⟩
    · simp only [this]
    · rw [(signalArrives_same _ _ _ _).1, this]
    · rw [this]
  | signalFailed i b =>
    exfalso; apply stay
    obtain ⟨x, n, v, _, _, _, rfl⟩ := rfail_step hs
    have := (moved_eng s i x n).2.2
    split
    · rw [(signalArrives_same _ _ _ _).1, this]
    · rw [this]
  | stepCompleted sv r =>
    exfalso; apply stay
    simp only [RemoteStack.step] at hs
    split at hs <;> cases hs
    rfl

/-- What is recorded, and was shown, when the engine ends a step. -/
theorem rend_trace {job : Job} {t : Time} {ja : List JobAct} {m : JobM} (hja : JobReach job t ja m) {st : Step} {t0 d : Time}
    {res : RunResult} (hpc : m.pc = .select st t0 d) (hidx : m.stream.logs.length ≤ m.stream.index) :
    ∃ (pre : List Event), let r := stepResult st.id res t0 m.now
      r.id = st.id ∧ Reports res r ∧ (m.stepDone r).acc.results = m.acc.results ++ [r] ∧
      (m.stepDone r).acc.trace = pre ++ [.runStep st, .stepState st.id .queued, .runnerRun st.toCommand,
        .stepState st.id .inProgress] ++ m.stream.logs.map (.log st.id) ++
        [.stepState st.id r.state, .stepCompleted r] := by
  have hpi := (pcInv_run hja).1
  simp only [PcInv, hpc] at hpi
  obtain ⟨⟨b, ps, st2, c, _, _, _, hacc⟩, _⟩ := hpi
  rw [List.take_of_length_le hidx] at hacc
  refine ⟨(loopAcc job.id ps).trace, ?_, ?_, rfl, ?_⟩
  · cases res <;> rfl
  · cases res <;> exact ⟨rfl, rfl⟩
  · simp only [JobM.stepDone, hacc]
    cases res <;> simp [stepResult]

/-! ## C95 -/

/-- **C95** Whatever happens, the engine of a job on the remote runner does what it does with any runner, and client, network and
server of each call what they do for any engine; every theorem about jobs (`JobReach`) and about remote executions (`RemoteReach`)
holds of the two together. -/
theorem C95_both_views (job : Job) (t : Time) (acts : List RemoteStackAct) (s : RemoteStack) (h : RemoteStackReach job t acts s) :
    (∃ ja, JobReach job t ja s.eng) ∧
    ∀ (i : Nat) (x : RemoteExec), s.execs[i]? = some x → ∃ na, RemoteReach na x.net ∧
      na.filter (fun | .setSignal _ | .engPoll => false | _ => true) = movesOf i acts := by
  refine ⟨(rstackInv_reach h).eng, fun i x hx => ?_⟩
  obtain ⟨na, h1, h2⟩ := (rstackInv_reach h).nets i x hx
  refine ⟨na, h1, ?_⟩
  rw [← h2]
  congr 1

/-- **C95** results and logs.  When a step executed through a server ends, the call was for its command, its recorded result is the
first result the runner on the server ended with, or a failure of the client's own that the log shows, and observers were shown what
the runner wrote, in order and at most followed by that one line.  If nothing failed, the result is the runner's and the log shows all
that was written before the end. -/
theorem C95_result (job : Job) (t : Time) (acts : List RemoteStackAct) (s s' : RemoteStack) (h : RemoteStackReach job t acts s)
    (st : Step) (i : Nat) (x : RemoteExec) (hex : ExecutingRemotely s st i x) (a : RemoteStackAct) (hs : s.step a = some s')
    (hend : s'.eng.pc = .next) :
    ∃ (pre : List Event) (r : StepRunResult) (res : RunResult) (shown own : List Log) (k : Nat),
      RemotelyEnded s s' r ∧ r.id = st.id ∧ x.command = st.toCommand ∧ Reports res r ∧
      s'.eng.acc.trace = pre ++ [.runStep st, .stepState st.id .queued, .runnerRun st.toCommand,
        .stepState st.id .inProgress] ++ shown.map (.log st.id) ++ [.stepState st.id r.state, .stepCompleted r] ∧
      shown = (runnerLogs (movesOf i acts)).take k ++ own ∧ (own = [] ∨ ∃ l, own = [l] ∧ OwnError l) ∧
      (runnerResult (movesOf i acts) = some res ∨ res = .failed 1 ∧ own ≠ []) ∧
      (FaultFree (movesOf i acts) → runnerResult (movesOf i acts) = some res ∧
        runnerLogsBeforeEnd (movesOf i acts) <+: shown ∧ shown <+: runnerLogs (movesOf i acts)) := by
  have hi := rstackInv_reach h
  obtain ⟨hr, hst⟩ := executing_pc hex
  obtain ⟨e1, e2, e3, e4, _, st0, e5, e6⟩ := hi.link i x hr hex.2.1 hex.2.2
  rw [hst, Option.some.injEq] at e5
  subst e5
  obtain ⟨st1, t0, d, res, hpc, hres, hidx, hm⟩ := rend_step hi hr hs hend
  rw [hpc] at hst
  simp only [runningStep, Option.some.injEq] at hst
  subst hst
  obtain ⟨ja, hja⟩ := hi.eng
  obtain ⟨pre, k1, k2, k3, k4⟩ := rend_trace hja (res := res) hpc hidx
  obtain ⟨na, hna, hfil⟩ := hi.nets i x hex.2.2
  obtain ⟨f1, f2, f3, f4⟩ := filter_rel na
  rw [hfil] at f1 f2 f3 f4
  obtain ⟨k, own, g1, g2, g3⟩ := call_stream hna
  refine ⟨pre, stepResult st1.id res t0 s.eng.now, res, s.eng.stream.logs, own, k, ⟨hend, by rw [hm]; exact k3⟩, k1, e6, k2,
    by rw [hm]; exact k4, by rw [← e1, g1, f2], g2, by rw [f1]; exact g3 res (by rw [e2]; exact hres), fun hf => ?_⟩
  have hpoll : ∃ n', x.net.step .engPoll = some n' ∧ n'.engineDone = true ∧ n'.outer.result = x.net.outer.result ∧
      n'.engineGot = x.net.engineGot := by
    refine ⟨{ x.net with outer := { x.net.outer with waker := some 1 }, engineDone := true }, ?_, rfl, rfl, rfl⟩
    have : x.net.outer.logs[x.net.outer.index]? = none := by
      rw [e1, e3]; exact List.getElem?_eq_none_iff.2 hidx
    simp [RemoteRun.step, e4, StreamState.poll, this, e2, hres]
  obtain ⟨n', p1, p2, p3, p4⟩ := hpoll
  have hna' := remoteReach_snoc hna p1
  have hff : FaultFree (na ++ [.engPoll]) := by
    intro b hb
    rw [List.mem_append, List.mem_singleton] at hb
    rcases hb with hb | rfl
    · exact (f4.1 hf) b hb
    · rfl
  obtain ⟨q1, _, q3, q4⟩ := C86_same_outcome _ _ hna' hff p2
  have gr := filter_rel (na ++ [.engPoll])
  have hfil' : (na ++ [RemoteAct.engPoll]).filter notEngine = movesOf i acts := by
    rw [List.filter_append, hfil]; simp [notEngine]
  rw [hfil'] at gr
  have hgot : n'.engineGot = s.eng.stream.logs := by
    rw [p4, (remote_reach hna).readOut.eq, e1, e3, List.take_of_length_le hidx]
  rw [hgot] at q3 q4
  exact ⟨by rw [gr.1, ← q1, p3, e2, hres], by rw [gr.2.2.1]; exact q3, by rw [gr.2.1]; exact q4⟩

/-- **C95** no runner.  A step for which there is no runner fails with exit code 1, its log saying so; the engine can move until
it has. -/
theorem C95_no_runner (job : Job) (t : Time) (acts : List RemoteStackAct) (s : RemoteStack) (h : RemoteStackReach job t acts s)
    (st : Step) (hex : (∃ t0, s.eng.pc = .handling st t0) ∨ ∃ t0 d, s.eng.pc = .select st t0 d) (hc : s.current = none) :
    ((s.step (.eng .enter)).isSome = true ∨ (s.step (.eng .recv)).isSome = true) ∧
    ∀ a s', s.step a = some s' → s'.eng.pc = .next →
      ∃ (pre : List Event) (r : StepRunResult), RemotelyEnded s s' r ∧ r.id = st.id ∧ r.state = .failed ∧ r.exitCode = some 1 ∧
        s'.eng.acc.trace = pre ++ [.runStep st, .stepState st.id .queued, .runnerRun st.toCommand,
          .stepState st.id .inProgress, .log st.id (Log.ofError "No runner available"), .stepState st.id r.state, .stepCompleted r] := by
  have hi := rstackInv_reach h
  have hr : s.eng.pc.reading = true := by rcases hex with ⟨t0, e⟩ | ⟨t0, d, e⟩ <;> rw [e] <;> rfl
  obtain ⟨n1, n2⟩ := hi.none hr hc
  constructor
  · rcases hex with ⟨t0, e⟩ | ⟨t0, d, e⟩
    · left; simp [RemoteStack.step, JobAct.byRunner, JobM.step, e]
    · right
      simp only [RemoteStack.step, JobAct.byRunner, JobM.step, e, StreamState.poll, n2]
      cases s.eng.stream.logs[s.eng.stream.index]? <;> simp
  · intro a s' hs hend
    obtain ⟨st1, t0, d, res, hpc, hres, hidx, hm⟩ := rend_step hi hr hs hend
    have hst : st = st1 := by
      rcases hex with ⟨t0, e⟩ | ⟨t0, d, e⟩ <;> rw [e] at hpc <;> cases hpc
      rfl
    subst hst
    obtain ⟨ja, hja⟩ := hi.eng
    obtain ⟨pre, k1, k2, k3, k4⟩ := rend_trace hja (res := res) hpc hidx
    rw [n2, Option.some.injEq] at hres
    subst hres
    refine ⟨pre, _, ⟨hend, by rw [hm]; exact k3⟩, k1, k2.1, k2.2, ?_⟩
    rw [hm, k4, n1]
    simp

/-- **C95** signals are the engine's.  A runner on a server gets a signal only if the engine has sent it to the execution of this step on
this server. -/
theorem C95_signal_only_from_engine (job : Job) (t : Time) (acts : List RemoteStackAct) (s : RemoteStack)
    (h : RemoteStackReach job t acts s) (i : Nat) (x : RemoteExec) (hx : s.execs[i]? = some x) (v : Signal)
    (hv : x.remote.signal = some v) :
    (∃ (j : Nat) (y : RemoteExec), s.execs[j]? = some y ∧ y.server = x.server ∧ y.command.id = x.command.id ∧
      y.net.sig.signal = some v) ∧
    (OnlyCall s i x.command.id → x.net.sig.signal = some v) := by
  obtain ⟨j, y, h1, h2, h3, h4⟩ := (rsigInv_reach h).source i x v hx hv
  refine ⟨⟨j, y, h1, h2, h3, h4⟩, fun ho => ?_⟩
  have := ho.1 j y h1 h3
  subst this
  rw [hx, Option.some.injEq] at h1
  subst h1
  exact h4

/-- **C95** signals arrive.  While a step is executed through the only call for it, and it has been signalled, or its job has: the runner on
the server has the signal, or the client does not listen to the server any more, or the engine is about to wait and can, or one of
the moves that carry the signal on is possible. -/
theorem C95_signal_carried (job : Job) (t : Time) (acts : List RemoteStackAct) (s : RemoteStack) (h : RemoteStackReach job t acts s)
    (st : Step) (i : Nat) (x : RemoteExec) (hex : ExecutingRemotely s st i x) (ho : OnlyCall s i x.command.id) (v : Signal)
    (hv : SignalPending s.eng v) :
    x.remote.signal = some v ∨ x.net.cli = .checking ∨ x.net.cli = .finished ∨
    (s.step (.eng .enter)).isSome = true ∨ ∃ a, carriesSignal i a = true ∧ (s.step a).isSome = true := by
  have hi := rstackInv_reach h
  obtain ⟨hr, hst⟩ := executing_pc hex
  obtain ⟨_, _, _, _, e5, _⟩ := hi.link i x hr hex.2.1 hex.2.2
  obtain ⟨na, hna, hfil⟩ := hi.nets i x hex.2.2
  have net : ∀ a, a.byStack = false → (x.net.step a).isSome = true → (s.step (.net i a)).isSome = true := by
    intro a ha hs
    obtain ⟨n, hn⟩ := Option.isSome_iff_exists.1 hs
    simp [RemoteStack.step, hex.2.2, ha, hn]
  rcases hv with hv | ⟨hv0, js, hj, hjv, hjn⟩
  · rw [hv] at e5
    cases hcli : x.net.cli with
    | calling =>
      refine .inr (.inr (.inr (.inr ⟨.net i .rpcOk, by simp [carriesSignal], net _ rfl ?_⟩)))
      simp [RemoteRun.step, hcli, calling_idle hna hcli]
    | signalling w =>
      refine .inr (.inr (.inr (.inr ⟨.net i .sigOk, by simp [carriesSignal], net _ rfl ?_⟩)))
      simp [RemoteRun.step, hcli]
    | checking => exact .inr (.inl rfl)
    | finished => exact .inr (.inr (.inl rfl))
    | streaming =>
      cases hn : x.net.sig.isNotified with
      | false =>
        refine .inr (.inr (.inr (.inr ⟨.net i .cliSignal, by simp [carriesSignal], net _ rfl ?_⟩)))
        simp [RemoteRun.step, hcli, SigState.poll, e5, hn]
      | true =>
        left
        have hsent : v ∈ x.net.sigSent := by
          rcases seen_reach hna hn with g | ⟨w, g⟩ | g | g
          · rcases (sendInv_reach hna).sent with g0 | ⟨w, g1, g2, _⟩
            · exact absurd g0 g
            · rw [e5, Option.some.injEq] at g2
              subst g2
              rw [g1]; exact List.mem_singleton_self _
          all_goals (rw [hcli] at g; cases g)
        exact (rsigInv_reach h).sent i x v hex.2.2 ho hsent
  · rcases hex.1 with ⟨t0, e⟩ | ⟨t0, d, e⟩
    · refine .inr (.inr (.inr (.inl ?_)))
      simp [RemoteStack.step, JobAct.byRunner, JobM.step, e]
    · refine .inr (.inr (.inr (.inr ⟨.eng .jobSignal, rfl, ?_⟩)))
      simp [RemoteStack.step, JobAct.byRunner, JobM.step, e, hj, SigState.poll, hjv, hjn]

/-! ## How often a signal is carried on -/

theorem call_counts {na : List RemoteAct} {n : RemoteRun} (h : RemoteReach na n) :
    na.count .rpcOk + (if n.cli = .calling then 1 else 0) ≤ 1 ∧
    na.count .cliSignal + (if n.sig.isNotified then 0 else 1) ≤ 1 ∧ na.count .sigOk = n.sigSent.length := by
  refine runs_induct (P := fun na n => na.count .rpcOk + (if n.cli = .calling then 1 else 0) ≤ 1 ∧
    na.count .cliSignal + (if n.sig.isNotified then 0 else 1) ≤ 1 ∧ na.count .sigOk = n.sigSent.length)
    (by decide) ?_ h
  intro acts a n n' _ ⟨h1, h2, h3⟩ hs
  simp only [List.count_append]
  cases a with
  | setSignal v =>
    simp only [RemoteRun.step, Option.some.injEq] at hs
    subst hs
    simp only [set_notified]
    exact ⟨by simpa [List.count_cons] using h1, by simpa [List.count_cons] using h2, by simpa [List.count_cons] using h3⟩
  | cliSignal =>
    simp only [RemoteRun.step] at hs
    (repeat' split at hs) <;> cases hs
    rename_i hp
    obtain ⟨g1, g2, g3⟩ := poll_some hp
    simp_all [List.count_cons]
  | _ =>
    simp only [RemoteRun.step] at hs
    (repeat' split at hs) <;> cases hs <;> simp_all [List.count_cons]

/-- A step of the engine, as far as the job's signal is concerned. -/
theorem job_notified_step {m m' : JobM} {a : JobAct} (hs : m.step a = some m') (hi : m.pc ≠ .init)
    (hn : a = .jobSignal ∨ ∀ js, m.jobSig = some js → js.isNotified = true) :
    m'.pc ≠ .init ∧ ∀ js, m'.jobSig = some js → js.isNotified = true := by
  cases a with
  | jobSignal =>
    simp only [JobM.step] at hs
    (repeat' split at hs) <;> cases hs
    rename_i hp
    obtain ⟨g1, g2, g3⟩ := poll_some hp
    refine ⟨by simp, fun js hjs => ?_⟩
    simp only [Option.some.injEq] at hjs
    rw [← hjs, g3]
  | cancel =>
    have hn := hn.resolve_left (by simp)
    simp only [JobM.step] at hs
    (repeat' split at hs) <;> cases hs
    · exact ⟨hi, hn⟩
    · rename_i js hj
      refine ⟨hi, fun js' hjs => ?_⟩
      simp only [Option.some.injEq] at hjs
      rw [← hjs, set_notified]; exact hn js hj
  | _ =>
    have hn := hn.resolve_left (by simp)
    simp only [JobM.step] at hs
    repeat' (split at hs)
    all_goals simp only [Option.some.injEq, reduceCtorEq] at hs
    all_goals (subst hs; first | (exact absurd (by assumption) hi) | exact ⟨by simp [JobM.stepDone, hi], by simp [JobM.stepDone, JobM.emit]; try exact hn⟩)

/-- What a move of the stack is to the engine. -/
theorem rstack_eng_step {s s' : RemoteStack} {a : RemoteStackAct} (hs : s.step a = some s') :
    (∃ b, a = .eng b ∧ b.byRunner = false ∧ s.eng.step b = some s'.eng) ∨
    ((∀ b, a ≠ .eng b) ∧ s'.eng.jobSig = s.eng.jobSig ∧ (s'.eng.pc = s.eng.pc ∨ ∃ st t0, s'.eng.pc = .handling st t0)) := by
  cases a with
  | eng b =>
    simp only [RemoteStack.step] at hs
    split at hs
    · cases hs
    · rename_i hb
      simp only [Option.map_eq_some_iff] at hs
      obtain ⟨m, hm, rfl⟩ := hs
      exact .inl ⟨b, rfl, by simpa using hb, hm⟩
  | dispatched sv =>
    right
    simp only [RemoteStack.step] at hs
    split at hs
    · rename_i st t0 hp
      simp only [JobM.step, hp, Option.map_some, Option.some.injEq] at hs
      subst hs
      exact ⟨by simp, rfl, .inr ⟨st, t0, rfl⟩⟩
    · cases hs
  | noRunner =>
    right
    simp only [RemoteStack.step] at hs
    split at hs
    · rename_i st t0 hp
      obtain ⟨g1, g2, g3⟩ := absorbAll_trace (ws := [.push (Log.ofError "No runner available"), .endStream (.failed 1)]) (by simp) s.eng
      rw [hp] at g3
      simp only [JobM.step, g3, Option.map_some, Option.some.injEq] at hs
      subst hs
      exact ⟨by simp, g2, .inr ⟨st, t0, rfl⟩⟩
    · cases hs
  | net i a =>
    right
    obtain ⟨x, n, _, _, _, hcase⟩ := rnet_step hs
    obtain ⟨_, g2, g3⟩ := moved_eng s i x n
    rcases hcase with ⟨_, rfl⟩ | ⟨v, _, _, rfl⟩ | ⟨_, _, _, rfl⟩
    · exact ⟨by simp, g2, .inl g3⟩
    · rw [(signalArrives_same _ _ _ _).1]; exact ⟨by simp, g2, .inl g3⟩
    · exact ⟨by simp, g2, .inl g3⟩
  | signalFailed i b =>
    right
    obtain ⟨x, n, v, _, _, _, rfl⟩ := rfail_step hs
    obtain ⟨_, g2, g3⟩ := moved_eng s i x n
    split
    · rw [(signalArrives_same _ _ _ _).1]; exact ⟨by simp, g2, .inl g3⟩
    · exact ⟨by simp, g2, .inl g3⟩
  | stepCompleted sv r =>
    right
    simp only [RemoteStack.step] at hs
    split at hs <;> cases hs
    exact ⟨by simp, rfl, .inl rfl⟩

theorem jobSignal_once {job : Job} {t : Time} {acts : List RemoteStackAct} {s : RemoteStack} (h : RemoteStackReach job t acts s) :
    acts.count (.eng .jobSignal) = 0 ∨ acts.count (.eng .jobSignal) = 1 ∧ s.eng.pc ≠ .init ∧
      ∀ js, s.eng.jobSig = some js → js.isNotified = true := by
  refine runs_induct (P := fun acts s => acts.count (.eng .jobSignal) = 0 ∨ acts.count (.eng .jobSignal) = 1 ∧ s.eng.pc ≠ .init ∧
      ∀ js, s.eng.jobSig = some js → js.isNotified = true) (.inl rfl) ?_ h
  intro acts a s s' _ ih hs
  simp only [List.count_append]
  rcases rstack_eng_step hs with ⟨b, rfl, _, hb⟩ | ⟨ha, h1, h2⟩
  · by_cases hbj : b = .jobSignal
    · subst hbj
      rcases ih with ih | ⟨_, _, ih3⟩
      · right
        have hpc : s.eng.pc ≠ .init := by intro e; simp [JobM.step, e] at hb
        obtain ⟨g1, g2⟩ := job_notified_step hb hpc (.inl rfl)
        exact ⟨by rw [ih]; simp, g1, g2⟩
      · exfalso
        simp only [JobM.step] at hb
        split at hb
        · rename_i hj
          split at hb
          · rename_i hp
            have := ih3 _ hj
            rw [(poll_some hp).1] at this
            cases this
          · cases hb
        · cases hb
    · have hc : [RemoteStackAct.eng b].count (.eng .jobSignal) = 0 := by simp [hbj]
      rw [hc, Nat.add_zero]
      rcases ih with ih | ⟨ih1, ih2, ih3⟩
      · exact .inl ih
      · exact .inr ⟨ih1, job_notified_step hb ih2 (.inr ih3)⟩
  · have hc : [a].count (.eng .jobSignal) = 0 := by simp [ha .jobSignal]
    rw [hc, Nat.add_zero, h1]
    rcases ih with ih | ⟨ih1, ih2, ih3⟩
    · exact .inl ih
    · refine .inr ⟨ih1, ?_, ih3⟩
      rcases h2 with h2 | ⟨st, t0, h2⟩ <;> rw [h2]
      · exact ih2
      · simp

/-- **C95** and soon.  In any history at all, the moves that carry a signal on to the server that executes call `i` are at most four. -/
theorem C95_signal_bounded (job : Job) (t : Time) (acts : List RemoteStackAct) (s : RemoteStack) (h : RemoteStackReach job t acts s)
    (i : Nat) : (acts.filter (carriesSignal i)).length ≤ 4 := by
  have hi := rstackInv_reach h
  have hnet : (movesOf i acts).count .rpcOk ≤ 1 ∧ (movesOf i acts).count .cliSignal ≤ 1 ∧ (movesOf i acts).count .sigOk ≤ 1 := by
    cases hx : s.execs[i]? with
    | none => rw [hi.later i (List.getElem?_eq_none_iff.1 hx)]; simp
    | some x =>
      obtain ⟨na, hna, hfil⟩ := hi.nets i x hx
      obtain ⟨h1, h2, h3⟩ := call_counts hna
      rw [← hfil]
      have hle := fun a => List.Sublist.count_le (l₁ := na.filter notEngine) (l₂ := na) a List.filter_sublist
      refine ⟨?_, ?_, ?_⟩
      · have := hle .rpcOk; omega
      · have := hle .cliSignal; omega
      · have := hle .sigOk
        rcases (sendInv_reach hna).sent with g | ⟨v, g, _⟩ <;> rw [g] at h3 <;> simp at h3 <;> omega
  have hjob : acts.count (.eng .jobSignal) ≤ 1 := by
    rcases jobSignal_once h with g | g <;> omega
  have hsum : ∀ acts : List RemoteStackAct, (acts.filter (carriesSignal i)).length ≤ acts.count (.eng .jobSignal) +
      (movesOf i acts).count .rpcOk + (movesOf i acts).count .cliSignal + (movesOf i acts).count .sigOk := by
    intro acts
    induction acts with
    | nil => simp
    | cons a acts ih =>
      have hm : movesOf i (a :: acts) = movesOf i [a] ++ movesOf i acts := by simp [movesOf, List.filterMap_cons]; split <;> simp
      rw [hm, List.count_cons]
      simp only [List.count_append]
      have : ((if carriesSignal i a then 1 else 0) : Nat) ≤ (if a == .eng .jobSignal then 1 else 0) + (movesOf i [a]).count .rpcOk +
          (movesOf i [a]).count .cliSignal + (movesOf i [a]).count .sigOk := by
        cases a with
        | eng b => cases b <;> simp [carriesSignal, movesOf]
        | net j b =>
          by_cases hj : j = i
          · subst hj
            cases b <;> simp [carriesSignal, movesOf, List.count_cons]
          · cases b <;> simp [carriesSignal, hj]
        | _ => simp [carriesSignal]
      rw [List.filter_cons]
      split
      · rename_i hc
        simp only [hc, if_true] at this
        simp only [List.length_cons]
        omega
      · omega
  have := hsum acts
  omega

/-- **C95** the end is reached.  If nothing fails in a call, and its runner on the server has ended its stream, the engine can move on, or
something in the call can, until the step has ended; what can happen in the call between the runner's and the engine's stream is at most
13 moves and five for each line the runner writes. -/
theorem C95_progress (job : Job) (t : Time) (acts : List RemoteStackAct) (s : RemoteStack) (h : RemoteStackReach job t acts s)
    (st : Step) (i : Nat) (x : RemoteExec) (hex : ExecutingRemotely s st i x) (hf : FaultFree (movesOf i acts)) :
    (runnerResult (movesOf i acts) ≠ none →
      (s.step (.eng .enter)).isSome = true ∨ (s.step (.eng .recv)).isSome = true ∨
      ∃ a, isPipeline a = true ∧ (s.step (.net i a)).isSome = true) ∧
    ((movesOf i acts).filter isPipeline).length ≤ 13 + 5 * (runnerLogs (movesOf i acts)).length := by
  have hi := rstackInv_reach h
  obtain ⟨hr, hst⟩ := executing_pc hex
  obtain ⟨e1, e2, e3, e4, _, _⟩ := hi.link i x hr hex.2.1 hex.2.2
  obtain ⟨na, hna, hfil⟩ := hi.nets i x hex.2.2
  obtain ⟨f1, f2, f3, f4⟩ := filter_rel na
  rw [hfil] at f1 f2 f3 f4
  obtain ⟨g1, g2⟩ := C86_engine_sees_the_end na x.net hna (f4.1 hf)
  constructor
  · intro hres
    rw [f1] at hres
    obtain ⟨a, n, p1, _, p3⟩ := g1 hres e4
    by_cases ha : a = .engPoll
    · subst ha
      rcases hex.1 with ⟨t0, e⟩ | ⟨t0, d, e⟩
      · left; simp [RemoteStack.step, JobAct.byRunner, JobM.step, e]
      · right; left
        simp only [RemoteRun.step, e4, StreamState.poll, e1, e2, e3] at p3
        simp only [RemoteStack.step, JobAct.byRunner, JobM.step, e, StreamState.poll]
        cases hl : s.eng.stream.logs[s.eng.stream.index]? with
        | some l => simp
        | none =>
          cases hrr : s.eng.stream.result with
          | some r => simp
          | none => simp [hl, hrr] at p3
    · right; right
      refine ⟨a, p1, ?_⟩
      have hb : a.byStack = false := by cases a <;> simp_all [isPipeline, RemoteAct.byStack]
      simp [RemoteStack.step, hex.2.2, hb, p3]
  · rw [f2, ← hfil]
    refine Nat.le_trans (List.Sublist.length_le ?_) g2
    exact List.Sublist.filter _ List.filter_sublist

/-! ## Every step is handed to the runner once -/

/-- The step the runner has, or is being given. -/
def handedPc : JobPc → List StepId
  | .calling st _ | .handling st _ | .select st _ _ => [st.id]
  | _ => []

/-- What was handed to the runner, and what of it is over. -/
def HandedInv (m : JobM) : Prop :=
  ∃ pre, handedOut m.acc.trace = pre ++ handedPc m.pc ∧ ∀ r, Event.stepCompleted r ∈ m.acc.trace → r.id ∈ pre

theorem handedOut_append (a b : List Event) : handedOut (a ++ b) = handedOut a ++ handedOut b := by simp [handedOut]

theorem handed_step {job : Job} {t : Time} {ja : List JobAct} {m m' : JobM} {a : JobAct} (h : JobReach job t ja m)
    (hi : HandedInv m) (hs : m.step a = some m') : HandedInv m' := by
  obtain ⟨pre, h1, h2⟩ := hi
  have hinit := (pcInv_run h).1
  cases a <;> simp only [JobM.step] at hs
  case check b =>
    split at hs
    · rename_i hp
      simp only [PcInv, hp] at hinit
      split at hs <;> cases hs
      · exact ⟨[], by simp [hinit, JobM.emit, handedOut, handedPc], by simp [hinit, JobM.emit]⟩
      · exact ⟨[], by simp [JobAcc.start, handedOut, handedPc], by simp [JobAcc.start]⟩
    · cases hs
  case finishJob =>
    split at hs
    · rename_i hp _
      simp only [Option.some.injEq] at hs
      subst hs
      rw [hp] at h1
      refine ⟨pre, ?_, fun r hr => h2 r ?_⟩
      · simp only [JobAcc.finish]
        split <;> simp_all [handedOut_append, handedOut, handedPc]
      · simp only [JobAcc.finish] at hr
        split at hr <;> simpa using hr
    · cases hs
  case refuse e =>
    split at hs
    · rename_i st t0 hp
      cases hs
      rw [hp] at h1
      refine ⟨pre ++ [st.id], ?_, fun r hr => ?_⟩
      · simp only [JobM.stepDone, handedOut_append, h1]; simp [handedPc, handedOut]
      · simp only [JobM.stepDone, List.mem_append, List.mem_cons, List.not_mem_nil, or_false, reduceCtorEq, false_or,
          Event.stepCompleted.injEq] at hr
        rcases hr with hr | rfl
        · simp [h2 r hr]
        · simp [refusedResult]
    · cases hs
  case recv =>
    split at hs
    · rename_i st t0 d hp
      rw [hp] at h1
      split at hs
      · cases hs
        exact ⟨pre, by simp only [JobM.emit, handedOut_append, h1]; simp [handedPc, handedOut], by simpa [JobM.emit] using h2⟩
      · split at hs <;> cases hs
        · rename_i res _
          refine ⟨pre ++ [st.id], ?_, fun r hr => ?_⟩
          · simp only [JobM.stepDone, handedOut_append, h1]; simp [handedPc, handedOut]
          · simp only [JobM.stepDone, List.mem_append, List.mem_cons, List.not_mem_nil, or_false, reduceCtorEq, false_or,
              Event.stepCompleted.injEq] at hr
            rcases hr with hr | rfl
            · simp [h2 r hr]
            · cases res <;> simp [stepResult]
        · exact ⟨pre ++ [st.id], by simpa [handedPc] using h1, fun r hr => by simp [h2 r hr]⟩
      · cases hs
    · cases hs
  all_goals
    repeat' (split at hs)
    all_goals simp only [Option.some.injEq, reduceCtorEq] at hs
    all_goals subst hs
    all_goals first
      | exact ⟨pre, h1, h2⟩
      | (refine ⟨pre, ?_, ?_⟩
         · simp_all [JobM.emit, handedOut_append, handedOut, handedPc, Step.toCommand]
         · intro r hr; exact h2 r (by simpa [JobM.emit] using hr))

theorem handed_reach {job : Job} {t : Time} {ja : List JobAct} {m : JobM} (h : JobReach job t ja m) : HandedInv m :=
  runs_induct (P := fun _ m => HandedInv m) ⟨[], rfl, by simp [JobM.initial]⟩ (fun _ _ _ _ hr ih hs => handed_step hr ih hs) h

/-- The calls so far are among the steps handed out. -/
def CallsInv (s : RemoteStack) : Prop :=
  ∃ pre, handedOut s.eng.acc.trace = pre ++ (match s.eng.pc with | .calling st _ => [st.id] | _ => []) ∧
    (s.execs.map fun x => x.command.id).Sublist pre

theorem handedOut_eng {m m' : JobM} {a : JobAct} (ha : a.byRunner = false) (hs : m.step a = some m') :
    (∃ st t0, m'.pc = .calling st t0 ∧ handedOut m'.acc.trace = handedOut m.acc.trace ++ [st.id] ∧ ∀ st t0, m.pc ≠ .calling st t0) ∨
    ((∀ st t0, m.pc = .calling st t0 ↔ m'.pc = .calling st t0) ∧ (handedOut m'.acc.trace = handedOut m.acc.trace ∨ m.pc = .init)) := by
  cases a <;> simp only [JobAct.byRunner, reduceCtorEq] at ha <;> simp only [JobM.step] at hs
  case call =>
    split at hs
    · rename_i hp
      split at hs <;> cases hs
      · left
        exact ⟨_, _, rfl, by simp only [JobM.emit, handedOut_append]; simp [handedOut, Step.toCommand], by simp [hp]⟩
      · right; exact ⟨by simp [hp], .inl rfl⟩
    · cases hs
  all_goals
    right
    repeat' (split at hs)
    all_goals simp only [Option.some.injEq, reduceCtorEq] at hs
    all_goals subst hs
    all_goals refine ⟨by simp_all [JobM.emit, JobM.stepDone], ?_⟩
    all_goals first
      | exact .inl rfl
      | exact .inr (by assumption)
      | (left; simp only [JobM.emit, JobM.stepDone, JobAcc.finish, handedOut_append]; simp [handedOut])

theorem calls_reach {job : Job} {t : Time} {acts : List RemoteStackAct} {s : RemoteStack} (h : RemoteStackReach job t acts s) :
    CallsInv s := by
  refine runs_induct (P := fun _ s => CallsInv s) ⟨[], rfl, List.Sublist.refl _⟩ ?_ h
  intro acts a s s' hr ⟨pre, h1, h2⟩ hs
  have keep : s'.eng.acc = s.eng.acc → s'.eng.pc = s.eng.pc →
      (s'.execs.map fun x => x.command.id) = s.execs.map (fun x => x.command.id) → CallsInv s' := by
    intro e1 e2 e3
    exact ⟨pre, by rw [e1, e2]; exact h1, by rw [e3]; exact h2⟩
  have arr : ∀ (s : RemoteStack) sv st v, ((s.signalArrives sv st v).execs.map fun x => x.command.id) = s.execs.map (fun x => x.command.id) := by
    intro s sv st v
    simp only [RemoteStack.signalArrives]
    split
    · exact modify_map_same fun _ => rfl
    · rfl
  have mov : ∀ (i : Nat) (x : RemoteExec) (n : RemoteRun), s.execs[i]? = some x →
      ((s.moved i x n).execs.map fun x => x.command.id) = s.execs.map (fun x => x.command.id) := by
    intro i x n hx
    apply List.ext_getElem?
    intro j
    simp only [List.getElem?_map, moved_get hx]
    split
    · rename_i e; subst e; rw [hx]; rfl
    · rfl
  cases a with
  | eng b =>
    simp only [RemoteStack.step] at hs
    split at hs
    · cases hs
    · rename_i hb
      simp only [Option.map_eq_some_iff] at hs
      obtain ⟨m, hm, rfl⟩ := hs
      have hids : (s.engineMoved b m).map (fun x => x.command.id) = s.execs.map fun x => x.command.id := by
        simp only [RemoteStack.engineMoved]
        (repeat' split) <;> first | rfl | exact modify_map_same fun _ => rfl
      simp only [CallsInv, hids]
      rcases handedOut_eng (by simpa using hb) hm with ⟨st, t0, g1, g2, g3⟩ | ⟨g1, g2⟩
      · refine ⟨pre, ?_, h2⟩
        rw [g1, g2, h1]
        cases hp : s.eng.pc <;> simp_all
      · rcases g2 with g2 | g2
        · refine ⟨pre, ?_, h2⟩
          rw [g2, h1]
          cases hp : s.eng.pc with
          | calling st t0 => rw [(g1 st t0).1 hp]
          | _ =>
            cases hq : m.pc with
            | calling st t0 => rw [(g1 st t0).2 hq] at hp; cases hp
            | _ => rfl
        · obtain ⟨ja, hja⟩ := (rstackInv_reach hr).eng
          have hpi := (pcInv_run hja).1
          simp only [PcInv, g2] at hpi
          rw [g2, hpi] at h1
          have : pre = [] := by simpa [handedOut] using h1.symm
          subst this
          refine ⟨handedOut m.acc.trace, ?_, ?_⟩
          · cases hq : m.pc with
            | calling st t0 => rw [g2] at g1; exact absurd ((g1 st t0).2 hq) (by simp)
            | _ => simp
          · rw [List.sublist_nil.1 h2]; exact List.nil_sublist _
  | dispatched sv =>
    simp only [RemoteStack.step] at hs
    split at hs
    · rename_i st t0 hp
      simp only [JobM.step, hp, Option.map_some, Option.some.injEq] at hs
      subst hs
      rw [hp] at h1
      refine ⟨pre ++ [st.id], ?_, ?_⟩
      · simp only [JobM.emit, handedOut_append, h1]; simp [handedOut]
      · simp only [List.map_append, List.map_cons, List.map_nil]
        exact List.Sublist.append h2 (List.Sublist.refl _)
    · cases hs
  | noRunner =>
    simp only [RemoteStack.step] at hs
    split at hs
    · rename_i st t0 hp
      obtain ⟨g1, g2, g3⟩ := absorbAll_trace (ws := [.push (Log.ofError "No runner available"), .endStream (.failed 1)]) (by simp) s.eng
      rw [hp] at g3
      simp only [JobM.step, g3, Option.map_some, Option.some.injEq] at hs
      subst hs
      rw [hp] at h1
      refine ⟨pre ++ [st.id], ?_, h2.trans (List.sublist_append_left _ _)⟩
      simp only [JobM.emit, handedOut_append, g1, h1]; simp [handedOut]
    · cases hs
  | net i a =>
    obtain ⟨x, n, hx, _, _, hcase⟩ := rnet_step hs
    obtain ⟨g1, _, g3⟩ := moved_eng s i x n
    rcases hcase with ⟨_, rfl⟩ | ⟨v, _, _, rfl⟩ | ⟨_, _, _, rfl⟩
    · exact keep g1 g3 (mov i x n hx)
    · refine keep (by rw [(signalArrives_same _ _ _ _).1]; exact g1) (by rw [(signalArrives_same _ _ _ _).1]; exact g3) ?_
      rw [arr, mov i x n hx]
    · exact keep g1 g3 (mov i x n hx)
  | signalFailed i b =>
    obtain ⟨x, n, v, hx, _, _, rfl⟩ := rfail_step hs
    obtain ⟨g1, _, g3⟩ := moved_eng s i x n
    split
    · rename_i hb
      rw [if_pos hb] at keep
      refine keep (by rw [(signalArrives_same _ _ _ _).1]; exact g1) (by rw [(signalArrives_same _ _ _ _).1]; exact g3) ?_
      rw [arr, mov i x n hx]
    · rename_i hb
      rw [if_neg hb] at keep
      exact keep g1 g3 (mov i x n hx)
  | stepCompleted sv r =>
    simp only [RemoteStack.step] at hs
    split at hs <;> cases hs
    exact keep rfl rfl rfl

/-- **C95** the hypothesis of `C95_signal_carried` holds if no two steps handed to the runner have the same id. -/
theorem C95_only_call (job : Job) (t : Time) (acts : List RemoteStackAct) (s : RemoteStack) (h : RemoteStackReach job t acts s)
    (st : Step) (i : Nat) (x : RemoteExec) (hex : ExecutingRemotely s st i x) (hd : (handedOut s.eng.acc.trace).Nodup) :
    OnlyCall s i x.command.id := by
  have hi := rstackInv_reach h
  obtain ⟨hr, hst⟩ := executing_pc hex
  obtain ⟨_, _, _, _, _, st0, e5, e6⟩ := hi.link i x hr hex.2.1 hex.2.2
  rw [hst, Option.some.injEq] at e5
  subst e5
  obtain ⟨ja, hja⟩ := hi.eng
  obtain ⟨pre, h1, h2⟩ := handed_reach hja
  obtain ⟨pre', h3, h4⟩ := calls_reach h
  have hpc : handedPc s.eng.pc = [st.id] := by rcases hex.1 with ⟨t0, e⟩ | ⟨t0, d, e⟩ <;> rw [e] <;> rfl
  rw [hpc] at h1
  have hsub : (s.execs.map fun x => x.command.id).Nodup := by
    refine List.Nodup.sublist (h4.trans ?_) hd
    rw [h3]; exact List.sublist_append_left _ _
  constructor
  · intro j y hy he
    have hjlt := (List.getElem?_eq_some_iff.1 hy).1
    refine (List.getElem?_inj (by simpa using hjlt) hsub).1 ?_
    simp only [List.getElem?_map, hy, hex.2.2, Option.map_some, he]
  · intro r hr' he
    rw [h1] at hd
    have := h2 r hr'
    rw [he, e6] at this
    rw [List.nodup_append] at hd
    exact hd.2.2 _ this _ (List.mem_singleton_self _) rfl

/-! ## The hypotheses are met -/

namespace RemoteStackEx
/-- The job of `MachineEx` is started, its first step handed to the server `a`. -/
def go : List RemoteStackAct :=
  [.eng (.check true), .eng (.nextStep true (MachineEx.st 0)), .eng .call, .dispatched "a", .eng .enter, .net 0 .rpcOk, .net 0 .srvRunOk]
/-- The runner writes a line and ends; everything is sent and read. -/
def normal : List RemoteStackAct :=
  go ++ [.net 0 (.runnerPush (Log.ofLog "x")), .net 0 .srvPoll, .net 0 .srvSend, .net 0 .xmit, .net 0 .cliNext, .eng .recv,
    .net 0 (.runnerEnd (.failed 3)), .net 0 .srvPoll, .net 0 .srvResult, .eng .enter, .net 0 .srvSend, .net 0 .xmit, .net 0 .cliNext]
/-- The job is cancelled. -/
def stop : List RemoteStackAct := go ++ [.eng .cancel, .eng .jobSignal, .net 0 .cliSignal, .net 0 .sigOk]
/-- The state a schedule leads to. -/
def after (acts : List RemoteStackAct) : RemoteStack :=
  (runs RemoteStack.step (RemoteStack.initial MachineEx.job 0) acts).getD (RemoteStack.initial MachineEx.job 0)
/-- The call of the first step. -/
def call (acts : List RemoteStackAct) : RemoteExec :=
  ((after acts).execs[0]?).getD { server := "", command := (MachineEx.st 0).toCommand }
end RemoteStackEx

example : RemoteStackReach MachineEx.job 0 RemoteStackEx.normal (RemoteStackEx.after RemoteStackEx.normal) ∧
    ExecutingRemotely (RemoteStackEx.after RemoteStackEx.normal) (MachineEx.st 0) 0 (RemoteStackEx.call RemoteStackEx.normal) ∧
    FaultFree (movesOf 0 RemoteStackEx.normal) ∧ runnerResult (movesOf 0 RemoteStackEx.normal) = some (.failed 3) ∧
    ∃ s', (RemoteStackEx.after RemoteStackEx.normal).step (.eng .recv) = some s' ∧ s'.eng.pc = .next ∧
      s'.eng.acc.results = [{ id := ⟨"w", "j", 0⟩, state := .failed, exitCode := some 3, startedAt := some 0, completedAt := some 0 }] := by
  refine ⟨by unfold RemoteStackReach; decide +kernel, ⟨.inr ⟨0, 2, by decide +kernel⟩, by decide +kernel, by decide +kernel⟩,
    by unfold FaultFree; decide +kernel, by decide +kernel,
    (RemoteStackEx.after (RemoteStackEx.normal ++ [.eng .recv])), by decide +kernel, by decide +kernel, by decide +kernel⟩

example : ExecutingRemotely (RemoteStackEx.after (RemoteStackEx.go ++ [.eng .cancel])) (MachineEx.st 0) 0
      (RemoteStackEx.call (RemoteStackEx.go ++ [.eng .cancel])) ∧
    SignalPending (RemoteStackEx.after (RemoteStackEx.go ++ [.eng .cancel])).eng .cancel ∧
    (handedOut (RemoteStackEx.after (RemoteStackEx.go ++ [.eng .cancel])).eng.acc.trace).Nodup := by
  refine ⟨⟨.inr ⟨0, 2, by decide +kernel⟩, by decide +kernel, by decide +kernel⟩, .inr ⟨by decide +kernel, { signal := some .cancel }, ?_⟩, by decide +kernel⟩
  decide +kernel

example : RemoteStackReach MachineEx.job 0 RemoteStackEx.stop (RemoteStackEx.after RemoteStackEx.stop) ∧
    (RemoteStackEx.call RemoteStackEx.stop).remote.signal = some .cancel ∧
    (RemoteStackEx.stop.filter (carriesSignal 0)).length = 4 := by
  refine ⟨by unfold RemoteStackReach; decide +kernel, by decide +kernel, by decide +kernel⟩

/-- No runner. -/
example : ∃ s, RemoteStackReach MachineEx.job 0
      [.eng (.check true), .eng (.nextStep true (MachineEx.st 0)), .eng .call, .noRunner] s ∧
    (∃ t0, s.eng.pc = .handling (MachineEx.st 0) t0) ∧ s.current = none :=
  ⟨RemoteStackEx.after [.eng (.check true), .eng (.nextStep true (MachineEx.st 0)), .eng .call, .noRunner],
    by unfold RemoteStackReach; decide +kernel, ⟨0, by decide +kernel⟩, by decide +kernel⟩

end AstroRun
