import Verif.Lemmas.RemoteHost
import Verif.Props.LocalStack

/-! # C96: a job on remote runners that execute their steps with the local runner, end to end

Schedules are arbitrary interleavings of the engine's task, API users, the clock, and for every step handed out of the client's task, the
network, the server's task, the task of the local runner on the server and its process, with all their failures. -/

namespace AstroRun
open Spec

/-! ## Lemmas -/

/-- What a move is to engine, clients, network and servers. -/
theorem host_net_step {s s' : RemoteHost} {a : HostAct} (hs : s.step a = some s') :
    (∃ b, a = .stk b ∧ b.byHost = false ∧ s.net.step b = some s'.net) ∨
    (∃ i b, b.byHost = true ∧ b ≠ .srvRunErr ∧ isFault b = false ∧ s.net.step (.net i b) = some s'.net ∧ ∀ c, a ≠ .stk c) ∨
    (s'.net = s.net ∧ ∀ c, a ≠ .stk c) := by
  cases a with
  | stk a =>
    simp only [RemoteHost.step] at hs
    split at hs
    · cases hs
    · rename_i hb
      simp only [Option.map_eq_some_iff] at hs
      obtain ⟨n, hn, rfl⟩ := hs
      exact .inl ⟨a, rfl, by simpa using hb, hn⟩
  | spawned i past envs =>
    obtain ⟨x, n, r, hx, hn, hp, rfl⟩ := hspawned_step hs
    exact .inr (.inl ⟨i, .srvRunOk, rfl, by simp, rfl, hn, by simp⟩)
  | loc i a =>
    obtain ⟨p, l, l', ht, hne, hstep, rfl⟩ := hloc_step hs
    right
    simp only
    cases hw : l.wrote l' with
    | none => exact .inr ⟨rfl, by simp⟩
    | some w =>
      cases w with
      | push y =>
        simp only [RemoteStack.runnerWrote]
        cases h : s.net.step (.net i (.runnerPush y)) with
        | none => exact .inr ⟨rfl, by simp⟩
        | some n => exact .inl ⟨i, .runnerPush y, rfl, by simp, rfl, h, by simp⟩
      | endStream r =>
        simp only [RemoteStack.runnerWrote]
        cases h : s.net.step (.net i (.runnerEnd r)) with
        | none => exact .inr ⟨rfl, by simp⟩
        | some n => exact .inl ⟨i, .runnerEnd r, rfl, by simp, rfl, h, by simp⟩
      | _ => exact .inr ⟨rfl, by simp⟩

/-- The moves of the stack are as clean as those of the whole. -/
theorem host_clean {servers : Id → LocalSetup} {event : Option TriggerEvent} {job : Job} {t : Time} {acts : List HostAct}
    {sacts : List RemoteStackAct} {s : RemoteHost} (h : HostInv servers event job t acts sacts s) {i : Nat} (hc : NetClean i acts) :
    FaultFree (movesOf i sacts) := by
  intro a ha
  obtain ⟨b, hb, hab⟩ := List.mem_filterMap.1 ha
  have ha1 : a ∈ movesOf i [b] := List.mem_filterMap.2 ⟨b, List.mem_singleton_self _, hab⟩
  rcases h.origin b hb with ⟨j, c, rfl, h1, h2⟩ | h1
  · by_cases e : j = i
    · simp only [movesOf, e, List.filterMap_cons, if_true, List.filterMap_nil, List.mem_singleton] at ha1
      subst ha1
      cases a <;> first | rfl | (cases h1; done) | exact absurd rfl h2
    · simp [movesOf, e] at ha1
  · exact hc b h1 a ha1

/-- What a call's link to the engine and to its task is. -/
theorem host_link {servers : Id → LocalSetup} {event : Option TriggerEvent} {job : Job} {t : Time} {acts : List HostAct}
    {sacts : List RemoteStackAct} {s : RemoteHost} (h : HostInv servers event job t acts sacts s) {st : Step} {i : Nat} {x : RemoteExec}
    (hex : ExecutingRemotely s.net st i x) {p : RunPlan} {l : LocalRun} (ht : s.tasks i = some (p, l)) :
    TaskAt s sacts i x p l ∧ x.command = st.toCommand ∧ x.net.sig.signal = s.net.eng.sig.signal := by
  obtain ⟨y, hy, hta⟩ := h.tasks i p l ht
  rw [hex.2.2, Option.some.injEq] at hy
  subst hy
  obtain ⟨hr, hst⟩ := executing_pc hex
  obtain ⟨_, _, _, _, e5, st0, e6, e7⟩ := (rstackInv_reach h.net).link i x hr hex.2.1 hex.2.2
  rw [hst, Option.some.injEq] at e6
  subst e6
  exact ⟨hta, e7, e5⟩

/-- The task's signal is the engine's. -/
theorem host_sig {servers : Id → LocalSetup} {event : Option TriggerEvent} {job : Job} {t : Time} {acts : List HostAct}
    {sacts : List RemoteStackAct} {s : RemoteHost} (h : HostInv servers event job t acts sacts s) {st : Step} {i : Nat} {x : RemoteExec}
    (hex : ExecutingRemotely s.net st i x) {p : RunPlan} {l : LocalRun} (ht : s.tasks i = some (p, l))
    (hd : (handedOut s.net.eng.acc.trace).Nodup) {v : Signal} (hv : l.sig.signal = some v) : s.net.eng.sig.signal = some v := by
  obtain ⟨hta, _, h2⟩ := host_link h hex ht
  rw [hta.sig] at hv
  rw [← h2]
  exact (C95_signal_only_from_engine job t sacts s.net h.net i x hex.2.2 v hv).2 (C95_only_call job t sacts s.net h.net st i x hex hd)

theorem reading_net {s s' : RemoteHost} {a : HostAct} (hs : s.step a = some s') (hr : s.net.eng.pc.reading = true)
    (hend : s'.net.eng.pc = .next) : ∃ b, s.net.step b = some s'.net := by
  rcases host_net_step hs with ⟨b, _, _, h⟩ | ⟨i, b, _, _, _, h, _⟩ | ⟨h, _⟩
  · exact ⟨b, h⟩
  · exact ⟨_, h⟩
  · rw [← h, hend] at hr; cases hr

/-! ## C96 -/

/-- **C96** Whatever happens, engine, clients, network and servers do what they do with any runner behind the servers, and each task of
the local runners what it does for any engine, started for the command of the call; every theorem about jobs on remote runners (`RemoteStackReach`)
and about executions by the local runner (`LocalReach`) holds of the two together.  What the server gets to read is what the task wrote, and
nothing else fails in a call than what fails in the whole. -/
theorem C96_both_views (servers : Id → LocalSetup) (event : Option TriggerEvent) (job : Job) (t : Time) (acts : List HostAct)
    (s : RemoteHost) (h : HostReach servers event job t acts s) :
    ∃ sacts, RemoteStackReach job t sacts s.net ∧ (∀ i, NetClean i acts → FaultFree (movesOf i sacts)) ∧
      ∀ (i : Nat) (p : RunPlan) (l : LocalRun), s.tasks i = some (p, l) → ∃ (x : RemoteExec) (la : List LocalAct),
        s.net.execs[i]? = some x ∧ LocalReach p (servers x.server).plugins.length la l ∧
        runnerLogs (movesOf i sacts) = l.stream.logs ∧ runnerResult (movesOf i sacts) = l.stream.result ∧
        ∃ past mem envs, p = (startRun (servers x.server).os (servers x.server).arch (servers x.server).workingDirectory
          (servers x.server).plugins past mem { command := x.command, event := event } envs).2 := by
  obtain ⟨sacts, hi⟩ := hostInv_reach h
  refine ⟨sacts, hi.net, fun i hc => host_clean hi hc, fun i p l hl => ?_⟩
  obtain ⟨x, hx, hta⟩ := hi.tasks i p l hl
  obtain ⟨la, hla⟩ := hta.reach
  obtain ⟨f1, f2, _⟩ := inner_facts hi.net hx
  have hset : s.setupOf x = { servers x.server with event := event } := by simp only [RemoteHost.setupOf, hi.cfg.1, hi.cfg.2]
  have hp := hta.plan
  rw [hset] at hla hp
  exact ⟨x, la, hx, hla, by rw [← f1]; exact hta.logs, by rw [← f2]; exact hta.result, hp⟩

/-- **C96** results and logs.  If neither network nor server failed in its call, then when a step ends, the server's local runner has run the
plan for it, the recorded result is the one the exit status of its process, or the signal that stopped it, calls for, and observers were shown
exactly the log its task wrote, in order.  Unless two steps handed out have the same id, it was stopped only by this step's own signal. -/
theorem C96_result (servers : Id → LocalSetup) (event : Option TriggerEvent) (job : Job) (t : Time) (acts : List HostAct)
    (s s' : RemoteHost) (h : HostReach servers event job t acts s) (st : Step) (i : Nat) (x : RemoteExec)
    (hex : ExecutingRemotely s.net st i x) (hc : NetClean i acts) (a : HostAct) (hs : s.step a = some s') (hend : s'.net.eng.pc = .next) :
    ∃ (pre : List Event) (r : StepRunResult) (p : RunPlan) (l : LocalRun), EndedThere s s' r ∧ r.id = st.id ∧ s.tasks i = some (p, l) ∧
      Reports (expectedResult l.exitSeen l.sigSeen) r ∧
      s'.net.eng.acc.trace = pre ++ [.runStep st, .stepState st.id .queued, .runnerRun st.toCommand,
        .stepState st.id .inProgress] ++ l.stream.logs.map (.log st.id) ++ [.stepState st.id r.state, .stepCompleted r] ∧
      PlanFor { servers x.server with event := event } st p ∧
      (∀ c, l.exitSeen = some c → ∃ ch, l.child = some ch ∧ ch.exit = some c) ∧
      (∀ v, l.sigSeen = some v → (handedOut s.net.eng.acc.trace).Nodup → s.net.eng.sig.signal = some v) := by
  obtain ⟨sacts, hi⟩ := hostInv_reach h
  obtain ⟨b, hb⟩ := reading_net hs (executing_pc hex).1 hend
  obtain ⟨pre, r, res, shown, own, k, g1, g2, g3, g4, g5, g6, g7, g8, g9⟩ :=
    C95_result job t sacts s.net s'.net hi.net st i x hex b hb hend
  obtain ⟨q1, q2, q3⟩ := g9 (host_clean hi hc)
  cases ht : s.tasks i with
  | none =>
    obtain ⟨_, d2, _⟩ := hi.idle i x hex.2.2 ht
    rw [(inner_facts hi.net hex.2.2).2.1, q1] at d2
    cases d2
  | some pl =>
    obtain ⟨p, l⟩ := pl
    obtain ⟨hta, hcmd, hsig⟩ := host_link hi hex ht
    obtain ⟨la, hla⟩ := hta.reach
    obtain ⟨f1, f2, _⟩ := inner_facts hi.net hex.2.2
    have hres : l.stream.result = some res := by rw [← hta.result, f2, q1]
    obtain ⟨w1, w2, w3⟩ := C63_result_partial p _ la l hla res hres
    have hshown : shown = l.stream.logs := by
      rw [hta.before] at q2
      rw [← f1, hta.logs] at q3
      exact List.IsPrefix.eq_of_length q3 (Nat.le_antisymm q3.length_le q2.length_le)
    have hp := hta.plan
    rw [show s.setupOf x = { servers x.server with event := event } by simp only [RemoteHost.setupOf, hi.cfg.1, hi.cfg.2], hcmd] at hp
    exact ⟨pre, r, p, l, g1, g2, rfl, by rw [← w1]; exact g4, by rw [← hshown]; exact g5, hp, w2,
      fun v hv hd => host_sig hi hex ht hd (w3 v hv)⟩

/-- **C96** failures.  Whatever fails, when a step ends, its result is the one its task's ended stream holds, or a failure of the client's own
that the log shows, and observers were shown a part of the task's log from its beginning, at most followed by that one line. -/
theorem C96_failure (servers : Id → LocalSetup) (event : Option TriggerEvent) (job : Job) (t : Time) (acts : List HostAct)
    (s s' : RemoteHost) (h : HostReach servers event job t acts s) (st : Step) (i : Nat) (x : RemoteExec)
    (hex : ExecutingRemotely s.net st i x) (a : HostAct) (hs : s.step a = some s') (hend : s'.net.eng.pc = .next) :
    ∃ (pre : List Event) (r : StepRunResult) (shown own : List Log), EndedThere s s' r ∧ r.id = st.id ∧
      s'.net.eng.acc.trace = pre ++ [.runStep st, .stepState st.id .queued, .runnerRun st.toCommand,
        .stepState st.id .inProgress] ++ (shown ++ own).map (.log st.id) ++ [.stepState st.id r.state, .stepCompleted r] ∧
      (own = [] ∨ ∃ e, own = [e] ∧ OwnError e) ∧
      (shown = [] ∨ ∃ p l, s.tasks i = some (p, l) ∧ shown <+: l.stream.logs) ∧
      ((∃ p l, s.tasks i = some (p, l) ∧ l.stream.result = some (expectedResult l.exitSeen l.sigSeen) ∧
          Reports (expectedResult l.exitSeen l.sigSeen) r) ∨
        (r.state = .failed ∧ r.exitCode = some 1 ∧ own ≠ [])) := by
  obtain ⟨sacts, hi⟩ := hostInv_reach h
  obtain ⟨b, hb⟩ := reading_net hs (executing_pc hex).1 hend
  obtain ⟨pre, r, res, shown, own, k, g1, g2, g3, g4, g5, g6, g7, g8, _⟩ :=
    C95_result job t sacts s.net s'.net hi.net st i x hex b hb hend
  subst g6
  obtain ⟨f1, f2, _⟩ := inner_facts hi.net hex.2.2
  rw [← f1] at g5
  rw [← f2] at g8
  refine ⟨pre, r, x.net.inner.logs.take k, own, g1, g2, g5, g7, ?_, ?_⟩
  · cases ht : s.tasks i with
    | none => left; rw [(hi.idle i x hex.2.2 ht).1]; simp
    | some pl =>
      right
      refine ⟨pl.1, pl.2, rfl, ?_⟩
      rw [← (host_link hi hex ht).1.logs]
      exact List.take_prefix _ _
  · rcases g8 with g8 | ⟨rfl, g8⟩
    · left
      cases ht : s.tasks i with
      | none => rw [(hi.idle i x hex.2.2 ht).2.1] at g8; cases g8
      | some pl =>
        obtain ⟨p, l⟩ := pl
        have hta := (host_link hi hex ht).1
        obtain ⟨la, hla⟩ := hta.reach
        rw [hta.result] at g8
        have := (C63_result_partial p _ la l hla res g8).1
        exact ⟨p, l, rfl, by rw [g8, this], by rw [← this]; exact g4⟩
    · right
      exact ⟨g4.1, g4.2, g8⟩

/-! ## Progress -/

theorem absorbAll_only {ws : List JobAct} (hw : ∀ w ∈ ws, (∃ l, w = .push l) ∨ ∃ r, w = .endStream r) (m : JobM) :
    ∃ o, m.absorbAll ws = { m with stream := o } := by
  induction ws generalizing m with
  | nil => exact ⟨m.stream, rfl⟩
  | cons w ws ih =>
    have : m.absorbAll (w :: ws) = ((m.step w).getD m).absorbAll ws := rfl
    rw [this]
    obtain ⟨o, h⟩ := ih (fun x hx => hw x (by simp [hx])) ((m.step w).getD m)
    have : ∃ o, (m.step w).getD m = { m with stream := o } := by
      rcases hw w (by simp) with ⟨l, rfl⟩ | ⟨r, rfl⟩ <;> simp only [JobM.step] <;> split <;> first | exact ⟨_, rfl⟩ | exact ⟨m.stream, rfl⟩
    obtain ⟨o', h'⟩ := this
    rw [h'] at h
    exact ⟨o, by rw [h', h]⟩

/-- A move of the stack that is not the engine's leaves the engine alone, but for the stream. -/
theorem rstack_quiet {s s' : RemoteStack} {a : RemoteStackAct} (hs : s.step a = some s') (ha : ∀ b, a ≠ .eng b)
    (hc : ∀ st t0, s.eng.pc ≠ .calling st t0) : (∃ o, s'.eng = { s.eng with stream := o }) ∧ s'.current = s.current := by
  have mov : ∀ i x n, (∃ o, (s.moved i x n).eng = { s.eng with stream := o }) ∧ (s.moved i x n).current = s.current := by
    intro i x n
    refine ⟨?_, rfl⟩
    simp only [RemoteStack.moved]
    split
    · exact absorbAll_only (writes_runner _ _) _
    · exact ⟨s.eng.stream, rfl⟩
  cases a with
  | eng b => exact absurd rfl (ha b)
  | dispatched sv =>
    simp [RemoteStack.step, hc] at hs
  | noRunner =>
    simp [RemoteStack.step, hc] at hs
  | net i b =>
    obtain ⟨x, n, _, _, _, hcase⟩ := rnet_step hs
    rcases hcase with ⟨_, rfl⟩ | ⟨v, _, _, rfl⟩ | ⟨_, _, _, rfl⟩
    · exact mov i x n
    · rw [(signalArrives_same _ _ _ _).1, (signalArrives_same _ _ _ _).2.1]; exact mov i x n
    · exact mov i x n
  | signalFailed i b =>
    obtain ⟨x, n, v, _, _, _, rfl⟩ := rfail_step hs
    split
    · rw [(signalArrives_same _ _ _ _).1, (signalArrives_same _ _ _ _).2.1]; exact mov i x n
    · exact mov i x n
  | stepCompleted sv r =>
    simp only [RemoteStack.step] at hs
    split at hs <;> cases hs
    exact ⟨⟨s.eng.stream, rfl⟩, rfl⟩

theorem stk_enabled {s : RemoteHost} {b : RemoteStackAct} (hb : b.byHost = false) (h : (s.net.step b).isSome = true) :
    (s.step (.stk b)).isSome = true := by
  obtain ⟨n, hn⟩ := Option.isSome_iff_exists.1 h
  simp [RemoteHost.step, hb, hn]

theorem hloc_enabled {s : RemoteHost} {i : Nat} {p : RunPlan} {l : LocalRun} {b : LocalAct} (hl : s.tasks i = some (p, l))
    (hb : b.own = true) (h : l.step b ≠ none) : (s.step (.loc i b)).isSome = true := by
  cases hl' : l.step b with
  | none => exact absurd hl' h
  | some l' => cases b <;> simp only [LocalAct.own, reduceCtorEq] at hb <;> simp [RemoteHost.step, hl, hl']

/-- Once the task has ended its stream, something can move until the step has ended. -/
theorem host_ended_progress {servers : Id → LocalSetup} {event : Option TriggerEvent} {job : Job} {t : Time} {acts : List HostAct}
    {sacts : List RemoteStackAct} {s : RemoteHost} (hi : HostInv servers event job t acts sacts s) {st : Step} {i : Nat} {x : RemoteExec}
    {p : RunPlan} {l : LocalRun} (hex : ExecutingThere s st i x p l) (hc : NetClean i acts) (hr : l.stream.result.isSome = true) :
    ∃ a, isHostWork i a = true ∧ a ≠ .stk (.eng .timer) ∧ (s.step a).isSome = true := by
  have hta := (host_link hi hex.1 hex.2).1
  have hres : runnerResult (movesOf i sacts) ≠ none := by
    rw [← (inner_facts hi.net hex.1.2.2).2.1, hta.result]
    intro e; rw [e] at hr; cases hr
  rcases (C95_progress job t sacts s.net hi.net st i x hex.1 (host_clean hi hc)).1 hres with h | h | ⟨a, h1, h2⟩
  · exact ⟨.stk (.eng .enter), rfl, by simp, stk_enabled rfl h⟩
  · exact ⟨.stk (.eng .recv), rfl, by simp, stk_enabled rfl h⟩
  · refine ⟨.stk (.net i a), by simp [isHostWork, h1], by simp, stk_enabled ?_ h2⟩
    cases a <;> first | rfl | (cases h1; done) | skip
    exfalso
    simp [RemoteStack.step, hex.1.2.2, RemoteAct.byStack, RemoteRun.step, hta.srv.2] at h2

/-- **C96** the task is started.  While a step is executed through a call in which neither network nor server has failed, and the server's local
runner has no task for it yet, something can move. -/
theorem C96_starts (servers : Id → LocalSetup) (event : Option TriggerEvent) (job : Job) (t : Time) (acts : List HostAct)
    (s : RemoteHost) (h : HostReach servers event job t acts s) (st : Step) (i : Nat) (x : RemoteExec)
    (hex : ExecutingRemotely s.net st i x) (hc : NetClean i acts) (hn : s.tasks i = none) :
    ∃ a, isHostWork i a = true ∧ a ≠ .stk (.eng .timer) ∧ (s.step a).isSome = true := by
  obtain ⟨sacts, hi⟩ := hostInv_reach h
  obtain ⟨na, hna, hfil⟩ := (rstackInv_reach hi.net).nets i x hex.2.2
  have hff : FaultFree na := by
    have := (filter_rel na).2.2.2
    rw [hfil] at this
    exact this.1 (host_clean hi hc)
  obtain ⟨_, d2, d3⟩ := hi.idle i x hex.2.2 hn
  rcases d3 with d3 | d3 | d3
  · refine ⟨.stk (.net i .rpcOk), by simp [isHostWork, isPipeline], by simp, stk_enabled rfl ?_⟩
    simp [RemoteStack.step, hex.2.2, RemoteAct.byStack, RemoteRun.step, d3, ((remote_reach hna).idle d3).2.2]
  · refine ⟨.spawned i (fun _ => []) [], by simp [isHostWork], by simp, ?_⟩
    simp [RemoteHost.step, hex.2.2, RemoteStack.step, RemoteAct.byStack, RemoteRun.step, d3]
  · exfalso
    obtain ⟨r, hr⟩ := (clean_reach hna hff).dead d3
    obtain ⟨ps, hp, _⟩ := (remote_reach hna).sent
    rcases hp with ⟨hp, _⟩ | ⟨r', _, h1, _⟩
    · have : WireItem.result r ∈ x.net.serverGot.map WireItem.log := by rw [← hp]; exact List.mem_append_left _ hr
      simp at this
    · rw [d2] at h1; cases h1

/-- **C96** and ends.  Once the process of its task is over, something can move until the step has ended. -/
theorem C96_progress (servers : Id → LocalSetup) (event : Option TriggerEvent) (job : Job) (t : Time) (acts : List HostAct)
    (s : RemoteHost) (h : HostReach servers event job t acts s) (st : Step) (i : Nat) (x : RemoteExec) (p : RunPlan) (l : LocalRun)
    (hex : ExecutingThere s st i x p l) (hc : NetClean i acts) (hover : ProcessOver l) :
    ∃ a, isHostWork i a = true ∧ a ≠ .stk (.eng .timer) ∧ (s.step a).isSome = true := by
  obtain ⟨sacts, hi⟩ := hostInv_reach h
  cases hres : l.stream.result with
  | some r => exact host_ended_progress hi hex hc (by rw [hres]; rfl)
  | none =>
    obtain ⟨la, hla⟩ := (host_link hi hex.1 hex.2).1.reach
    have hns : ¬ TaskStuck l := by
      intro hstuck
      obtain ⟨r, hr⟩ := C63_ends p _ la l hla hstuck hover
      rw [hres] at hr; cases hr
    have : ∃ a : LocalAct, a.own = true ∧ isFailure a = false ∧ l.step a ≠ none := by
      apply Classical.byContradiction
      intro hn
      exact hns fun a h1 h2 => Classical.byContradiction fun h3 => hn ⟨a, h1, h2, h3⟩
    obtain ⟨a, h1, h2, h3⟩ := this
    exact ⟨.loc i a, by simp [isHostWork, h1, h2], by simp, hloc_enabled hex.2 h1 h3⟩

/-! ## Signals -/

theorem pending_eng {m m' : JobM} {b : JobAct} {v : Signal} (hb : b.byRunner = false) (hs : m.step b = some m')
    (hr' : m'.pc.reading = true) (hv : SignalPending m v) (ht : m.sig.signal = none → b ≠ .timer) : SignalPending m' v := by
  obtain ⟨hr, _, _, hk, _⟩ := eng_reading hb hs hr'
  rcases hv with hv | ⟨h0, js, j1, j2, j3⟩
  · exact .inl (hk v hv)
  · have ht := ht h0
    cases b <;> simp only [JobAct.byRunner, reduceCtorEq, ne_eq, not_true_eq_false] at hb ht <;> simp only [JobM.step] at hs
    case jobSignal =>
      left
      split at hs
      · rename_i js' hp hjs'
        rw [j1, Option.some.injEq] at hjs'
        subst hjs'
        simp only [SigState.poll, j3, j2, Bool.false_eq_true, if_false, Option.some.injEq] at hs
        rw [← hs]
        simp [set_signal, h0]
      · cases hs
    case cancel =>
      rw [j1] at hs
      simp only [Option.some.injEq] at hs
      rw [← hs]
      exact .inr ⟨h0, _, rfl, by simp [set_signal, j2], by rw [set_notified]; exact j3⟩
    all_goals
      right
      repeat' (split at hs)
      all_goals simp only [Option.some.injEq, reduceCtorEq] at hs
      all_goals subst hs
      all_goals first
        | exact ⟨h0, js, j1, j2, j3⟩
        | (simp [JobM.stepDone, JobPc.reading] at hr'; done)
        | (simp_all [JobPc.reading]; done)

/-- What a move of the stack is to the execution of a step. -/
inductive ExecMove (s s' : RemoteStack) (a : RemoteStackAct) (st : Step) (i : Nat) : Prop
  | going (y : RemoteExec) (hex : ExecutingRemotely s' st i y) (hrs : s'.eng.acc.results = s.eng.acc.results)
      (hh : handedOut s'.eng.acc.trace = handedOut s.eng.acc.trace)
      (hsig : ∀ v, (s.eng.sig.signal = none → a ≠ .eng .timer) → SignalPending s.eng v → SignalPending s'.eng v)
      (hkeep : ∀ v, s.eng.sig.signal = some v → s'.eng.sig.signal = some v)
  | ended (hpc : s'.eng.pc = .next)

theorem reading_exec {s : RemoteStack} {st : Step} {i : Nat} {y : RemoteExec} (hr : s.eng.pc.reading = true)
    (hst : runningStep s.eng.pc = some st) (hc : s.current = some i) (hy : s.execs[i]? = some y) : ExecutingRemotely s st i y := by
  refine ⟨?_, hc, hy⟩
  cases hp : s.eng.pc <;> simp [hp, JobPc.reading, runningStep] at hr hst
  · subst hst; exact .inl ⟨_, rfl⟩
  · subst hst; exact .inr ⟨_, _, rfl⟩

theorem exec_move {s s' : RemoteStack} {a : RemoteStackAct} {st : Step} {i : Nat} {x : RemoteExec} (hex : ExecutingRemotely s st i x)
    (hs : s.step a = some s') : ExecMove s s' a st i := by
  obtain ⟨hr, hst⟩ := executing_pc hex
  obtain ⟨y, hy, _⟩ := exec_step hs hex.2.2
  have hnc : ∀ st t0, s.eng.pc ≠ .calling st t0 := by intro st t0 e; rw [e] at hr; cases hr
  by_cases hb : ∃ b, a = .eng b
  · obtain ⟨b, rfl⟩ := hb
    simp only [RemoteStack.step] at hs
    split at hs
    · cases hs
    · rename_i hbr
      simp only [Option.map_eq_some_iff] at hs
      obtain ⟨m, hm, rfl⟩ := hs
      have hbr : b.byRunner = false := by simpa using hbr
      rcases eng_from_reading hbr hr hm with ⟨g1, g2⟩ | ⟨st1, t0, d, res, _, _, _, _, h5⟩
      · obtain ⟨_, _, _, e4, e5⟩ := eng_reading hbr hm g1
        refine .going y (reading_exec g1 (by simp only [e5]; exact hst) hex.2.1 hy) g2 ?_ ?_ e4
        · rcases handedOut_eng hbr hm with ⟨st', t0, h1, _⟩ | ⟨_, h1 | h1⟩
          · simp only [h1] at g1; cases g1
          · exact h1
          · rw [h1] at hr; cases hr
        · intro v ht hv
          exact pending_eng hbr hm g1 hv fun h0 e => ht h0 (by rw [e])
      · exact .ended (by simp only [h5]; rfl)
  · obtain ⟨⟨o, ho⟩, hcur⟩ := rstack_quiet hs (fun b e => hb ⟨b, e⟩) hnc
    refine .going y (reading_exec (by rw [ho]; exact hr) (by rw [ho]; exact hst) (by rw [hcur]; exact hex.2.1) hy) (by rw [ho]) (by rw [ho]) ?_
      (by rw [ho]; exact fun v h => h)
    intro v _ hv
    rw [ho]; exact hv

/-- What a move is to a task. -/
theorem host_task_step {servers : Id → LocalSetup} {event : Option TriggerEvent} {job : Job} {t : Time} {acts : List HostAct}
    {sacts : List RemoteStackAct} {s s' : RemoteHost} {a : HostAct} (h : HostInv servers event job t acts sacts s)
    (hs : s.step a = some s') {i : Nat} {p : RunPlan} {l : LocalRun} (hl : s.tasks i = some (p, l)) :
    (∃ sg, s'.tasks i = some (p, l.shareSignal sg) ∧ ∀ b, a ≠ .loc i b) ∨
    ∃ b l', a = .loc i b ∧ (∀ v, b ≠ .setSignal v) ∧ l.step b = some l' ∧ s'.tasks i = some (p, l') := by
  have shr : ∀ s : RemoteHost, s.tasks i = some (p, l) → ∃ sg, s.share.tasks i = some (p, l.shareSignal sg) := by
    intro s hl
    simp only [RemoteHost.share, hl]
    cases s.net.execs[i]? with
    | none => exact ⟨{}, by rw [share_none rfl]⟩
    | some x => exact ⟨x.remote, rfl⟩
  cases a with
  | stk a =>
    left
    simp only [RemoteHost.step] at hs
    split at hs
    · cases hs
    · simp only [Option.map_eq_some_iff] at hs
      obtain ⟨n, hn, rfl⟩ := hs
      obtain ⟨sg, h1⟩ := shr { s with net := n } hl
      exact ⟨sg, h1, by simp⟩
  | spawned j past envs =>
    left
    obtain ⟨x, n, r, hx, hn, hp, rfl⟩ := hspawned_step hs
    obtain ⟨y, hy, hta⟩ := h.tasks i p l hl
    have hij : i ≠ j := by
      intro e
      subst e
      rw [hx, Option.some.injEq] at hy
      subst hy
      simp [RemoteStack.step, hx, RemoteAct.byStack, RemoteRun.step, hta.srv.2] at hn
    obtain ⟨sg, h1⟩ := shr { s with
            net := n
            mems := fun id => if id = x.server then r.1 else s.mems id
            tasks := fun k => if k = j then some (r.2, LocalRun.initial r.2 (s.setupOf x).plugins.length) else s.tasks k } (by simp [hij, hl])
    exact ⟨sg, h1, by simp⟩
  | loc j b =>
    obtain ⟨q, k, k', ht, hne, hstep, rfl⟩ := hloc_step hs
    by_cases e : i = j
    · subst e
      rw [hl, Option.some.injEq, Prod.mk.injEq] at ht
      obtain ⟨rfl, rfl⟩ := ht
      exact .inr ⟨b, k', rfl, hne, hstep, by simp⟩
    · left
      refine ⟨{}, ?_, ?_⟩
      · rw [share_none rfl]; simp [e, hl]
      · intro c hc; cases hc; exact e rfl

/-- Where the execution of a step to which signal `v` was sent is: still going, or ended as the signal says; `rs` are the
job's results before, `o` was the step's signal then. -/
inductive HostStruck (o : Option Signal) (v : Signal) (st : Step) (i : Nat) (p : RunPlan) (rs : List StepRunResult) (s : RemoteHost) : Prop
  | going (x : RemoteExec) (l : LocalRun) (hex : ExecutingThere s st i x p l) (hrs : s.net.eng.acc.results = rs)
      (hd : (handedOut s.net.eng.acc.trace).Nodup) (hv : SignalPending s.net.eng v) (hk : ∀ w, o = some w → s.net.eng.sig.signal = some w)
      (h : Running l ∧ l.sig.signal = none ∨ Struck v l)
  | ended (l : LocalRun) (r : StepRunResult) (hpc : s.net.eng.pc = .next) (hl : s.tasks i = some (p, l))
      (hrs : s.net.eng.acc.results = rs ++ [r]) (hid : r.id = st.id) (hrep : Reports (signalResult v) r) (h : Struck v l)
      (hres : l.stream.result.isSome = true)

theorem sparesCall_own {i : Nat} {b : LocalAct} (h : sparesCall i (.loc i b) = true) : isFailure b = false ∧ ∀ c, b ≠ .exit c := by
  cases b <;> simp [sparesCall, isFailure] at h ⊢

theorem sparesCall_clean {i : Nat} {acts : List HostAct} {a : HostAct} (h : NetClean i acts) (ha : sparesCall i a = true) :
    NetClean i (acts ++ [a]) := by
  intro b hb
  rw [List.mem_append, List.mem_singleton] at hb
  rcases hb with hb | rfl
  · exact h b hb
  · intro c hc
    have key : ∀ l : List RemoteAct, (l.all fun a => !isFault a) = true → ∀ c ∈ l, isFault c = false := by
      intro l hl c hc
      simpa using List.all_eq_true.1 hl c hc
    cases b with
    | eng b => simp [movesOf] at hc
    | _ => exact key _ (by simpa only [sparesCall] using ha) c hc

theorem pending_of_sig {m : JobM} {v w : Signal} (hv : SignalPending m v) (hw : m.sig.signal = some w) : w = v := by
  rcases hv with hv | ⟨h0, _⟩
  · rw [hw, Option.some.injEq] at hv; exact hv
  · rw [hw] at h0; cases h0

theorem hostReach_snoc {servers : Id → LocalSetup} {event : Option TriggerEvent} {job : Job} {t : Time} {acts : List HostAct}
    {s s' : RemoteHost} {a : HostAct} (h : HostReach servers event job t acts s) (hs : s.step a = some s') :
    HostReach servers event job t (acts ++ [a]) s' := runs_snoc.2 ⟨s, h, hs⟩

theorem hostStruck_step {servers : Id → LocalSetup} {event : Option TriggerEvent} {job : Job} {t : Time} {acts : List HostAct}
    {s s' : RemoteHost} {a : HostAct} (hreach : HostReach servers event job t acts s) {o : Option Signal} {v : Signal} {st : Step} {i : Nat} {p : RunPlan}
    {rs : List StepRunResult} (hc : NetClean i acts) (h : HostStruck o v st i p rs s) (ha : sparesCall i a = true)
    (hat : o = none → a ≠ .stk (.eng .timer)) (hs : s.step a = some s') : HostStruck o v st i p rs s' := by
  obtain ⟨sacts, hi⟩ := hostInv_reach hreach
  obtain ⟨sacts', hi'⟩ := hostInv_reach (hostReach_snoc hreach hs)
  -- the task after the move
  have task : ∀ l, s.tasks i = some (p, l) → (Running l ∧ l.sig.signal = none ∨ Struck v l) →
      ∃ l', s'.tasks i = some (p, l') ∧ (Running l' ∨ Struck v l') ∧ (Struck v l → Struck v l') ∧
        ∀ r, l.stream.result = some r → l'.stream.result = some r := by
    intro l hl h
    obtain ⟨x, hx, hta⟩ := hi.tasks i p l hl
    obtain ⟨la, hla⟩ := hta.reach
    rcases host_task_step hi hs hl with ⟨sg, h1, _⟩ | ⟨b, l', rfl, h2, h3, h4⟩
    · refine ⟨_, h1, ?_, fun h => struck_share h sg, fun r hr => by rw [(share_stream l sg).1]; exact hr⟩
      rcases h with h | h
      · exact .inl (running_share h.1 sg)
      · exact .inr (struck_share h sg)
    · obtain ⟨f1, f2⟩ := sparesCall_own ha
      refine ⟨l', h4, ?_, fun h => struck_step (local_reach hla).1 h f1 f2 h2 h3, fun r hr => step_result h3 hr⟩
      rcases h with h | h
      · exact .inl (running_step f1 f2 h2 h.2 h.1 h3)
      · exact .inr (struck_step (local_reach hla).1 h f1 f2 h2 h3)
  cases h with
  | going x l hex hrs hd hv hk h =>
    obtain ⟨l', t1, t2, t3, t4⟩ := task l hex.2 h
    have go : ∀ y, ExecutingRemotely s'.net st i y → s'.net.eng.acc.results = s.net.eng.acc.results →
        handedOut s'.net.eng.acc.trace = handedOut s.net.eng.acc.trace → SignalPending s'.net.eng v →
        (∀ w, s.net.eng.sig.signal = some w → s'.net.eng.sig.signal = some w) → HostStruck o v st i p rs s' := by
      intro y hy g1 g2 g3 g4
      refine .going y l' ⟨hy, t1⟩ (by rw [g1, hrs]) (by rw [g2]; exact hd) g3 (fun w hw => g4 w (hk w hw)) ?_
      rcases t2 with t2 | t2
      · cases hsg : l'.sig.signal with
        | none => exact .inl ⟨t2, rfl⟩
        | some w =>
          have hw := host_sig hi' hy t1 (by rw [g2]; exact hd) hsg
          have := pending_of_sig g3 hw
          subst this
          obtain ⟨la, hla⟩ := (host_link hi' hy t1).1.reach
          exact .inr (running_struck (local_reach hla).1 t2 hsg)
      · exact .inr t2
    have net : ∀ b, s.net.step b = some s'.net → (s.net.eng.sig.signal = none → b ≠ .eng .timer) → HostStruck o v st i p rs s' := by
      intro b hb hbt
      cases exec_move hex.1 hb with
      | going y h1 h2 h3 h4 h5 => exact go y h1 h2 h3 (h4 v hbt hv) h5
      | ended hpc =>
        obtain ⟨pre, r, res, shown, own, k, g1, g2, g3, g4, g5, g6, g7, g8, g9⟩ :=
          C95_result job t sacts s.net s'.net hi.net st i x hex.1 b hb hpc
        obtain ⟨q1, _, _⟩ := g9 (host_clean hi hc)
        have hta := (host_link hi hex.1 hex.2).1
        obtain ⟨la, hla⟩ := hta.reach
        have hres : l.stream.result = some res := by rw [← hta.result, (inner_facts hi.net hex.1.2.2).2.1, q1]
        rcases h with h | h
        · rw [running_noresult (local_reach hla).1 h.1] at hres; cases hres
        · refine .ended l' r hpc t1 (by rw [g1.2, hrs]) g2 ?_ (t3 h) (by rw [t4 res hres]; rfl)
          rw [← (struck_result hla h hres).1]; exact g4
    rcases host_net_step hs with ⟨b, rfl, _, hb⟩ | ⟨j, b, _, _, _, hb, _⟩ | ⟨hb, _⟩
    · refine net b hb fun h0 e => ?_
      cases ho : o with
      | none => exact hat ho (by rw [e])
      | some w => rw [hk w ho] at h0; cases h0
    · exact net _ hb (by simp)
    · exact go x (by rw [hb]; exact hex.1) (by rw [hb]) (by rw [hb]) (by rw [hb]; exact hv) (by rw [hb]; exact fun w hw => hw)
  | ended l r hpc hl hrs hid hrep h hres =>
    obtain ⟨l', t1, t2, t3, t4⟩ := task l hl (.inr h)
    obtain ⟨res, hres⟩ := Option.isSome_iff_exists.1 hres
    have : s'.net.eng.pc = .next ∧ s'.net.eng.acc = s.net.eng.acc := by
      have hnc : ∀ st t0, s.net.eng.pc ≠ .calling st t0 := by intro st t0 e; rw [e] at hpc; cases hpc
      have net : ∀ b, s.net.step b = some s'.net → (∀ c, b ≠ .eng c) → s'.net.eng.pc = .next ∧ s'.net.eng.acc = s.net.eng.acc := by
        intro b hb hne
        obtain ⟨⟨o, ho⟩, _⟩ := rstack_quiet hb hne hnc
        rw [ho]; exact ⟨hpc, rfl⟩
      rcases host_net_step hs with ⟨b, rfl, _, hb⟩ | ⟨j, b, _, _, _, hb, _⟩ | ⟨hb, _⟩
      · by_cases hbe : ∃ c, b = .eng c
        · obtain ⟨c, rfl⟩ := hbe
          rcases rstack_eng_step hb with ⟨d, e, h1, h2⟩ | ⟨h1, _⟩
          · cases e
            cases c <;> simp only [sparesCall, JobAct.byRunner, reduceCtorEq] at ha h1 <;>
              simp only [JobM.step, hpc, reduceCtorEq] at h2
            case tick => simp only [Option.some.injEq] at h2; rw [← h2]; exact ⟨rfl, rfl⟩
            case cancel => split at h2 <;> (simp only [Option.some.injEq] at h2; rw [← h2]; exact ⟨rfl, rfl⟩)
          · exact absurd rfl (h1 c)
        · exact net b hb fun c e => hbe ⟨c, e⟩
      · exact net _ hb (by simp)
      · rw [hb]; exact ⟨hpc, rfl⟩
    exact .ended l' r this.1 t1 (by rw [this.2, hrs]) hid hrep (t3 h) (by rw [t4 res hres]; rfl)

/-- What is said about a step to which signal `v` was sent. -/
theorem hostStruck_claim {servers : Id → LocalSetup} {event : Option TriggerEvent} {job : Job} {t : Time} {acts : List HostAct}
    {s s' : RemoteHost} (hreach : HostReach servers event job t acts s') {o : Option Signal} {v : Signal} {st : Step} {i : Nat} {p : RunPlan}
    (hc : NetClean i acts) (h : HostStruck o v st i p s.net.eng.acc.results s') :
    (∃ r l', EndedThere s s' r ∧ r.id = st.id ∧ Reports (signalResult v) r ∧ s'.tasks i = some (p, l') ∧
      (p.kind = .docker → l'.kills = ["docker kill " ++ p.dirs.dockerName])) ∨
    (∃ x' l', ExecutingThere s' st i x' p l' ∧
      ∃ a, isHostWork i a = true ∧ a ≠ .stk (.eng .timer) ∧ (s'.step a).isSome = true) := by
  obtain ⟨sacts, hi⟩ := hostInv_reach hreach
  cases h with
  | ended l r hpc hl hrs hid hrep h hres =>
    obtain ⟨x, hx, hta⟩ := hi.tasks i p l hl
    obtain ⟨la, hla⟩ := hta.reach
    obtain ⟨res, hres'⟩ := Option.isSome_iff_exists.1 hres
    exact .inl ⟨r, l, ⟨hpc, hrs⟩, hid, hrep, hl, (struck_result hla h hres').2⟩
  | going x l hex hrs hd hv hk h =>
    refine .inr ⟨x, l, hex, ?_⟩
    obtain ⟨hta, _, hsig⟩ := host_link hi hex.1 hex.2
    obtain ⟨la, hla⟩ := hta.reach
    rcases h with ⟨hrun, hn⟩ | h
    · have hnr := running_noresult (local_reach hla).1 hrun
      have ho := C95_only_call job t sacts s'.net hi.net st i x hex.1 hd
      have over : ¬ (x.net.cli = .checking ∨ x.net.cli = .finished) := by
        intro e
        obtain ⟨na, hna, hfil⟩ := (rstackInv_reach hi.net).nets i x hex.1.2.2
        have hff : FaultFree na := by
          have := (filter_rel na).2.2.2
          rw [hfil] at this
          exact this.1 (host_clean hi hc)
        obtain ⟨_, _, _, _, r, hr, _⟩ := (remote_reach hna).last ((clean_reach hna hff).over e)
        rw [hta.result, hnr] at hr
        cases hr
      rcases C95_signal_carried job t sacts s'.net hi.net st i x hex.1 ho v hv with g | g | g | g | ⟨a, g1, g2⟩
      · rw [← hta.sig, hn] at g; cases g
      · exact absurd (.inl g) over
      · exact absurd (.inr g) over
      · exact ⟨.stk (.eng .enter), rfl, by simp, stk_enabled rfl g⟩
      · refine ⟨.stk a, ?_, ?_, stk_enabled ?_ g2⟩
        · cases a with
          | eng b => cases b <;> first | rfl | (cases g1; done)
          | net j b => cases b <;> first | (cases g1; done) | (simpa [carriesSignal, isHostWork, isPipeline] using g1)
          | _ => cases g1
        · intro e; cases e; cases g1
        · cases a with
          | net j b => cases b <;> first | rfl | (cases g1; done)
          | _ => rfl
    · rcases struck_progress (local_reach hla).1 (local_reach hla).2 h with hres | ⟨b, h1, h2, h3⟩
      · exact host_ended_progress hi hex hc hres
      · exact ⟨.loc i b, by simp [isHostWork, h1, h2], by simp, hloc_enabled hex.2 h1 h3⟩

/-- **C96** signals.  A step whose process runs on a server and to which, or to whose job, a signal was sent: whatever else happens short of the
process exiting by itself, network, server or operating system failing in its call (and, if only the job has been cancelled so far, of the step
timing out before the engine has noticed), the step either has ended as the signal says, with its container killed on the server, or is still
executed and some task can go on (by `C96_bounded`, not forever). -/
theorem C96_signal (servers : Id → LocalSetup) (event : Option TriggerEvent) (job : Job) (t : Time) (acts : List HostAct)
    (s : RemoteHost) (h : HostReach servers event job t acts s) (st : Step) (i : Nat) (x : RemoteExec) (p : RunPlan) (l : LocalRun)
    (hex : ExecutingThere s st i x p l) (hc : NetClean i acts) (hd : (handedOut s.net.eng.acc.trace).Nodup) (v : Signal)
    (hv : SignalPending s.net.eng v) (hrun : Running l) (more : List HostAct) (s' : RemoteHost)
    (hm : ∀ a ∈ more, sparesCall i a = true ∧ (s.net.eng.sig.signal = none → a ≠ .stk (.eng .timer)))
    (hr : runs RemoteHost.step s more = some s') :
    (∃ r l', EndedThere s s' r ∧ r.id = st.id ∧ Reports (signalResult v) r ∧ s'.tasks i = some (p, l') ∧
      (p.kind = .docker → l'.kills = ["docker kill " ++ p.dirs.dockerName])) ∨
    (∃ x' l', ExecutingThere s' st i x' p l' ∧
      ∃ a, isHostWork i a = true ∧ a ≠ .stk (.eng .timer) ∧ (s'.step a).isSome = true) := by
  have hfirst : HostStruck s.net.eng.sig.signal v st i p s.net.eng.acc.results s := by
    refine .going x l hex rfl hd hv (fun _ h => h) ?_
    cases hsg : l.sig.signal with
    | none => exact .inl ⟨hrun, rfl⟩
    | some w =>
      obtain ⟨sacts, hi⟩ := hostInv_reach h
      have := pending_of_sig hv (host_sig hi hex.1 hex.2 hd hsg)
      subst this
      obtain ⟨la, hla⟩ := (host_link hi hex.1 hex.2).1.reach
      exact .inr (running_struck (local_reach hla).1 hrun hsg)
  have key : ∀ (more : List HostAct) (acts : List HostAct) (s1 : RemoteHost), HostReach servers event job t acts s1 → NetClean i acts →
      HostStruck s.net.eng.sig.signal v st i p s.net.eng.acc.results s1 →
      (∀ a ∈ more, sparesCall i a = true ∧ (s.net.eng.sig.signal = none → a ≠ .stk (.eng .timer))) →
      runs RemoteHost.step s1 more = some s' → ∃ acts, HostReach servers event job t acts s' ∧ NetClean i acts ∧
        HostStruck s.net.eng.sig.signal v st i p s.net.eng.acc.results s' := by
    intro more
    induction more with
    | nil =>
      intro acts s1 h1 h2 h3 _ hr
      simp only [runs, Option.some.injEq] at hr
      subst hr
      exact ⟨acts, h1, h2, h3⟩
    | cons a more ih =>
      intro acts s1 h1 h2 h3 hm hr
      simp only [runs] at hr
      cases hs : s1.step a with
      | none => simp [hs] at hr
      | some s2 =>
        rw [hs] at hr
        obtain ⟨m1, m2⟩ := hm a (by simp)
        exact ih (acts ++ [a]) s2 (hostReach_snoc h1 hs) (sparesCall_clean h2 m1) (hostStruck_step h1 h2 h3 m1 m2 hs)
          (fun b hb => hm b (by simp [hb])) hr
  obtain ⟨acts', g1, g2, g3⟩ := key more acts s h hc hfirst hm hr
  exact hostStruck_claim g1 g2 g3

/-- **C96** cancelling.  The job's cancel request was answered with success while the step's process ran on a server: the step ends as cancelled,
with its container killed there, or is still executed and some task can go on; see `C96_signal`. -/
theorem C96_cancel (servers : Id → LocalSetup) (event : Option TriggerEvent) (job : Job) (t : Time) (acts : List HostAct)
    (s s1 : RemoteHost) (h : HostReach servers event job t acts s) (st : Step) (i : Nat) (x : RemoteExec) (p : RunPlan) (l : LocalRun)
    (hex : ExecutingThere s st i x p l) (hc : NetClean i acts) (hd : (handedOut s.net.eng.acc.trace).Nodup) (hrun : Running l)
    (hno : s.net.eng.sig.signal = none) (hcan : s.step (.stk (.eng .cancel)) = some s1)
    (hok : s1.net.eng.answers = s.net.eng.answers ++ [true]) (more : List HostAct) (s' : RemoteHost)
    (hm : ∀ a ∈ more, sparesCall i a = true ∧ a ≠ .stk (.eng .timer)) (hr : runs RemoteHost.step s1 more = some s') :
    (∃ r l', EndedThere s s' r ∧ r.id = st.id ∧ r.state = .cancelled ∧ s'.tasks i = some (p, l') ∧
      (p.kind = .docker → l'.kills = ["docker kill " ++ p.dirs.dockerName])) ∨
    (∃ x' l', ExecutingThere s' st i x' p l' ∧
      ∃ a, isHostWork i a = true ∧ a ≠ .stk (.eng .timer) ∧ (s'.step a).isSome = true) := by
  obtain ⟨sacts, hi⟩ := hostInv_reach h
  obtain ⟨ja, hja⟩ := (rstackInv_reach hi.net).eng
  have hreg := (allInv_run hja).2.2.1
  have hnet : s.net.step (.eng .cancel) = some s1.net := by
    rcases host_net_step hcan with ⟨b, e, _, hb⟩ | ⟨_, _, _, _, _, _, e⟩ | ⟨_, e⟩
    · cases e; exact hb
    · exact absurd rfl (e _)
    · exact absurd rfl (e _)
  obtain ⟨l1, ht1, hrun1⟩ : ∃ l1, s1.tasks i = some (p, l1) ∧ Running l1 := by
    rcases host_task_step hi hcan hex.2 with ⟨sg, g, _⟩ | ⟨b, l', e, _⟩
    · exact ⟨_, g, running_share hrun sg⟩
    · cases e
  have heng : s.net.eng.step .cancel = some s1.net.eng := by
    rcases rstack_eng_step hnet with ⟨b, e, _, hb⟩ | ⟨e, _⟩
    · cases e; exact hb
    · exact absurd rfl (e _)
  have hpend : SignalPending s1.net.eng .cancel ∧ s1.net.eng.sig.signal = none := by
    simp only [JobM.step] at heng
    cases hj : s.net.eng.jobSig with
    | none =>
      rw [hj] at heng
      simp only [Option.some.injEq] at heng
      rw [← heng] at hok
      simp at hok
    | some js =>
      rw [hj] at heng
      simp only [Option.some.injEq] at heng
      rw [← heng] at hok
      simp only [List.append_cancel_left_eq, List.cons.injEq, and_true] at hok
      rw [set_ok] at hok
      have hnn : js.signal = none := by simpa using hok
      have hnot : js.isNotified = false := by
        cases hb : js.isNotified with
        | false => rfl
        | true =>
          have := (hreg.reg js hj).2.1 hb
          simp [hnn] at this
      rw [← heng]
      exact ⟨.inr ⟨hno, _, rfl, by simp [set_signal, hnn], by rw [set_notified]; exact hnot⟩, hno⟩
  cases exec_move hex.1 hnet with
  | ended hpc =>
    exfalso
    have hrd := (executing_pc hex.1).1
    simp only [JobM.step] at heng
    split at heng <;> (simp only [Option.some.injEq] at heng; rw [← heng] at hpc; simp only at hpc; rw [hpc] at hrd; cases hrd)
  | going y h1 h2 h3 _ _ =>
    rcases C96_signal servers event job t (acts ++ [.stk (.eng .cancel)]) s1 (hostReach_snoc h hcan) st i y p l1 ⟨h1, ht1⟩
      (sparesCall_clean hc rfl) (by rw [h3]; exact hd) .cancel hpend.1 hrun1 more s' (fun a ha => ⟨(hm a ha).1, fun _ => (hm a ha).2⟩) hr with
      ⟨r, l', g1, g2, g3, g4⟩ | g
    · exact .inl ⟨r, l', ⟨g1.1, by rw [g1.2, h2]⟩, g2, g3.1, g4⟩
    · exact .inr g

/-! ## Bounds -/

/-- How much is left to do in a call and by the engine, as long as nothing else happens; `l` is any task. -/
def callWork (m : JobM) (n : RemoteRun) (l : LocalRun) : Nat := 3 * remoteWork n + stackWork m l

theorem outer_one {n n' : RemoteRun} {a : RemoteAct} (hs : n.step a = some n') : n'.outer.logs.length ≤ n.outer.logs.length + 1 := by
  have hf : ∀ (o : StreamState) e, (o.fail e).logs.length ≤ o.logs.length + 1 := by
    intro o e
    rw [StreamState.fail, endSeq_logs_eq]
    simp [StreamState.error, StreamState.push]
  have hac : ∀ (o : StreamState) x, (o.accept x).logs.length ≤ o.logs.length + 1 := by
    intro o x
    cases x with
    | log l => simp only [StreamState.accept]; split <;> simp [StreamState.error, StreamState.log, StreamState.push]
    | result r => rw [StreamState.accept, endSeq_logs_eq]; omega
  cases a with
  | engPoll =>
    simp only [RemoteRun.step] at hs
    have := poll_logs n.outer 1
    (repeat' split at hs) <;> cases hs <;> (rename_i hp; rw [hp] at this; simp only at this ⊢; rw [this]; omega)
  | _ =>
    simp only [RemoteRun.step] at hs
    (repeat' split at hs) <;> cases hs <;> first | exact hf _ _ | exact hac _ _ | exact Nat.le_succ _

/-- One move of the engine or in the call. -/
theorem rstack_work {job : Job} {t : Time} {acts : List RemoteStackAct} {s s' : RemoteStack} {a : RemoteStackAct} {i : Nat} {x : RemoteExec}
    (h : RemoteStackReach job t acts s) (hf : FaultFree (movesOf i acts)) (hcur : s.current = some i) (hx : s.execs[i]? = some x)
    (ht : ∀ st, runningStep s.eng.pc = some st → 0 < st.timeout) (hs : s.step a = some s') (l : LocalRun) {own : Nat} {c : List Log}
    (ha : (a = .eng .enter ∨ a = .eng .timer ∨ a = .eng .jobSignal ∨ a = .eng .recv) ∧ own = 1 ∧ c = [] ∨
      (∃ b, a = .net i b ∧ isFault b = false ∧ own = (if isPipeline b then 1 else 0) ∧ c = pushOf b) ∨
      ((∃ j b, a = .net j b ∧ j ≠ i) ∨ (∃ j b, a = .signalFailed j b ∧ j ≠ i) ∨ ∃ sv r, a = .stepCompleted sv r) ∧ own = 0 ∧ c = []) :
    ∃ y, s'.current = some i ∧ s'.execs[i]? = some y ∧ y.server = x.server ∧ (∀ st, runningStep s'.eng.pc = some st → 0 < st.timeout) ∧
      callWork s'.eng y.net l + own ≤ callWork s.eng x.net l + 15 * c.length := by
  have hi := rstackInv_reach h
  obtain ⟨y, hy, hsv, _, _, hcall⟩ := exec_step hs hx
  obtain ⟨na, hna, hfil⟩ := hi.nets i x hx
  have hff : FaultFree na := by
    have := (filter_rel na).2.2.2
    rw [hfil] at this
    exact this.1 hf
  have hinv := remote_reach hna
  have hcl := clean_reach hna hff
  have hchk : x.net.cli = .checking → x.net.outer.isEnded = true := by
    intro hc
    have hw := hcl.over (.inl hc)
    simp only [StreamState.isEnded, hcl.result]
    cases hh : wireResults x.net.clientGot with
    | nil => exact absurd hh hw
    | cons _ _ => rfl
  rcases ha with ⟨ha, rfl, rfl⟩ | ⟨b, rfl, hb, rfl, rfl⟩ | ⟨ha, rfl, rfl⟩
  · have hall : ∃ b, a = .eng b ∧ (b = .enter ∨ b = .timer ∨ b = .jobSignal ∨ b = .recv) := by
      rcases ha with rfl | rfl | rfl | rfl <;> exact ⟨_, rfl, by simp⟩
    obtain ⟨b, rfl, hb⟩ := hall
    simp only [RemoteStack.step] at hs
    split at hs
    · cases hs
    · simp only [Option.map_eq_some_iff] at hs
      obtain ⟨m, hm, rfl⟩ := hs
      obtain ⟨k1, k2⟩ := eng_work (l := l) (l' := l) hb rfl ht hm
      refine ⟨y, hcur, hy, hsv, k2, ?_⟩
      have : remoteWork y.net ≤ remoteWork x.net := by
        have eng : ∀ m, remoteWork (x.net.engineMoved b m) ≤ remoteWork x.net := by
          intro m
          have h1 : remoteWork (if b = .recv then (x.net.step .engPoll).getD x.net else x.net) ≤ remoteWork x.net := by
            split
            · cases hp : x.net.step .engPoll with
              | none => exact Nat.le_refl _
              | some n' =>
                have := remoteWork_step hinv.readIn.le hinv.readOut.le rfl hchk hp
                simp only [pushOf, List.length_nil] at this
                simp only [Option.getD_some]
                omega
            · exact Nat.le_refl _
          simp only [RemoteRun.engineMoved]
          split
          · refine Nat.le_trans (Nat.le_of_eq ?_) h1
            simp only [remoteWork, set_notified]
          · exact h1
        cases hcall with
        | net c _ hm _ => simp [movesOf] at hm
        | eng c m' e _ hn => cases e; rw [hn]; exact eng m'
        | same _ hn => rw [hn]; exact Nat.le_refl _
      simp only [callWork, List.length_nil]
      omega
  · obtain ⟨z, n, hz, hbs, hstep, hcase⟩ := rnet_step hs
    rw [hx, Option.some.injEq] at hz
    subst hz
    have hyn : y.net = n := by
      cases hcall with
      | net c _ hm hs' =>
        simp only [movesOf, List.filterMap_cons, if_true, List.filterMap_nil, List.cons.injEq, and_true] at hm
        subst hm
        rw [hstep, Option.some.injEq] at hs'
        exact hs'.symm
      | eng c m' e _ hn => cases e
      | same hm _ => simp [movesOf] at hm
    have hw := remoteWork_step hinv.readIn.le hinv.readOut.le hb hchk hstep
    have heng : (s.moved i x n).current = s.current ∧ runningStep (s.moved i x n).eng.pc = runningStep s.eng.pc ∧
        stackWork (s.moved i x n).eng l ≤ stackWork s.eng l + 2 := by
      have hone := outer_one hstep
      refine ⟨rfl, by rw [(moved_eng s i x n).2.2], ?_⟩
      simp only [RemoteStack.moved]
      split
      · rename_i hc
        simp only [Bool.and_eq_true, beq_iff_eq] at hc
        obtain ⟨e1, e2, e3, _⟩ := hi.link i x hc.1 hc.2 hx
        obtain ⟨st, g1, g2, _, g4⟩ := absorbAll_spec hc.1 (net_step (byStack_false hbs) hstep).1 e1 e2
        rw [g1]
        rw [e1] at hone
        simp only [stackWork, g2, g4]
        omega
      · omega
    have hcases : s'.eng = (s.moved i x n).eng ∧ s'.current = s.current := by
      rcases hcase with ⟨_, rfl⟩ | ⟨v, _, _, rfl⟩ | ⟨_, _, _, rfl⟩
      · exact ⟨rfl, rfl⟩
      · exact ⟨(signalArrives_same _ _ _ _).1, (signalArrives_same _ _ _ _).2.1⟩
      · exact ⟨rfl, rfl⟩
    refine ⟨y, by rw [hcases.2]; exact hcur, hy, hsv, by rw [hcases.1, heng.2.1]; exact ht, ?_⟩
    rw [hcases.1, hyn]
    have := heng.2.2
    simp only [callWork]
    by_cases hp : isPipeline b = true
    · simp only [hp, if_true] at hw ⊢
      omega
    · simp only [hp, if_false, Bool.false_eq_true] at hw ⊢
      have hsame : n.outer = x.net.outer := by
        cases b <;> simp only [isPipeline, isFault, not_true_eq_false, reduceCtorEq] at hp hb <;> simp only [RemoteRun.step] at hstep
        · split at hstep <;> cases hstep; rfl
        · split at hstep <;> cases hstep; rfl
        · cases hbs
      have : stackWork (s.moved i x n).eng l = stackWork s.eng l := by
        simp only [RemoteStack.moved, hsame, writes_self, JobM.absorbAll, List.foldl_nil, ite_self]
      omega
  · have hne : y.net = x.net := by
      have hm0 : movesOf i [a] = [] := by
        rcases ha with ⟨j, b, rfl, e⟩ | ⟨j, b, rfl, e⟩ | ⟨sv, r, rfl⟩ <;> simp [movesOf, *]
      cases hcall with
      | net c _ hm _ => rw [hm0] at hm; cases hm
      | eng c m' e _ hn => rcases ha with ⟨j, b, rfl, _⟩ | ⟨j, b, rfl, _⟩ | ⟨sv, r, rfl⟩ <;> cases e
      | same _ hn => exact hn
    have mov : ∀ j z n, j ≠ i → (s.moved j z n).eng = s.eng := by
      intro j z n hj
      simp only [RemoteStack.moved, hcur]
      rw [if_neg]
      simp [Ne.symm hj]
    have heng : s'.eng = s.eng ∧ s'.current = s.current := by
      rcases ha with ⟨j, b, rfl, e⟩ | ⟨j, b, rfl, e⟩ | ⟨sv, r, rfl⟩
      · obtain ⟨z, n, _, _, _, hcase⟩ := rnet_step hs
        rcases hcase with ⟨_, rfl⟩ | ⟨v, _, _, rfl⟩ | ⟨_, _, _, rfl⟩
        · exact ⟨mov j z n e, rfl⟩
        · rw [(signalArrives_same _ _ _ _).1, (signalArrives_same _ _ _ _).2.1]; exact ⟨mov j z n e, rfl⟩
        · exact ⟨mov j z n e, rfl⟩
      · obtain ⟨z, n, v, _, _, _, rfl⟩ := rfail_step hs
        split
        · rw [(signalArrives_same _ _ _ _).1, (signalArrives_same _ _ _ _).2.1]; exact ⟨mov j z n e, rfl⟩
        · exact ⟨mov j z n e, rfl⟩
      · simp only [RemoteStack.step] at hs
        split at hs <;> cases hs
        exact ⟨rfl, rfl⟩
    refine ⟨y, by rw [heng.2]; exact hcur, hy, hsv, by rw [heng.1]; exact ht, ?_⟩
    rw [heng.1, hne]
    simp

/-- What is left to do for the task of a call. -/
def taskWork (s : RemoteHost) (i : Nat) (x : RemoteExec) : Nat :=
  match s.tasks i with
  | some (_, l) => l.work
  | none => (s.servers x.server).plugins.length + 12

theorem share_taskWork (s : RemoteHost) (i : Nat) (x : RemoteExec) : taskWork s.share i x = taskWork s i x := by
  simp only [taskWork, RemoteHost.share]
  cases s.tasks i with
  | none => rfl
  | some q =>
    cases s.net.execs[i]? with
    | none => rfl
    | some z => simp only [share_work]

theorem host_work {servers : Id → LocalSetup} {event : Option TriggerEvent} {job : Job} {t : Time} {acts : List HostAct}
    {s s' : RemoteHost} {a : HostAct} {i : Nat} {x : RemoteExec} (h : HostReach servers event job t acts s) (hc : NetClean i acts)
    (hcur : s.net.current = some i) (hx : s.net.execs[i]? = some x) (ht : ∀ st, runningStep s.net.eng.pc = some st → 0 < st.timeout)
    (hs : s.step a = some s') (ha : isHostWork i a = true ∨ isHostElsewhere i a = true) (l : LocalRun) :
    ∃ y, s'.net.current = some i ∧ s'.net.execs[i]? = some y ∧ y.server = x.server ∧
      (∀ st, runningStep s'.net.eng.pc = some st → 0 < st.timeout) ∧
      20 * taskWork s' i y + callWork s'.net.eng y.net l + (if isHostWork i a then 1 else 0) ≤
        20 * taskWork s i x + callWork s.net.eng x.net l := by
  obtain ⟨sacts, hi⟩ := hostInv_reach h
  have hff := host_clean hi hc
  have tw : ∀ (s : RemoteHost) (y : RemoteExec), y.server = x.server → taskWork s i y = taskWork s i x := by
    intro s y e; simp only [taskWork, e]
  cases a with
  | stk a =>
    simp only [RemoteHost.step] at hs
    split at hs
    · cases hs
    · rename_i hbh
      simp only [Option.map_eq_some_iff] at hs
      obtain ⟨n, hn, rfl⟩ := hs
      have hcase : (a = .eng .enter ∨ a = .eng .timer ∨ a = .eng .jobSignal ∨ a = .eng .recv) ∧ (if isHostWork i (.stk a) then 1 else 0) = 1 ∧ ([] : List Log) = [] ∨
          (∃ b, a = .net i b ∧ isFault b = false ∧ (if isHostWork i (.stk a) then 1 else 0) = (if isPipeline b then 1 else 0) ∧ [] = pushOf b) ∨
          ((∃ j b, a = .net j b ∧ j ≠ i) ∨ (∃ j b, a = .signalFailed j b ∧ j ≠ i) ∨ ∃ sv r, a = .stepCompleted sv r) ∧
            (if isHostWork i (.stk a) then 1 else 0) = 0 ∧ ([] : List Log) = [] := by
        cases a with
        | eng b =>
          left
          cases b <;> simp [isHostWork, isHostElsewhere] at ha ⊢
        | net j b =>
          right
          by_cases e : j = i
          · subst e
            left
            simp only [isHostWork, isHostElsewhere, beq_self_eq_true, Bool.true_and, bne_self_eq_false, Bool.false_eq_true, or_false] at ha
            refine ⟨b, rfl, ?_, by simp [isHostWork], ?_⟩
            · cases b <;> first | rfl | (cases ha; done)
            · cases b <;> first | rfl | (cases ha; done)
          · right
            exact ⟨.inl ⟨j, b, rfl, e⟩, by simp [isHostWork, e], rfl⟩
        | signalFailed j b =>
          right; right
          simp only [isHostWork, isHostElsewhere, bne_iff_ne, Bool.false_eq_true, false_or] at ha
          exact ⟨.inr (.inl ⟨j, b, rfl, ha⟩), rfl, rfl⟩
        | stepCompleted sv r => right; right; exact ⟨.inr (.inr ⟨sv, r, rfl⟩), rfl, rfl⟩
        | _ => simp [isHostWork, isHostElsewhere] at ha
      obtain ⟨y, g1, g2, g3, g4, g5⟩ := rstack_work hi.net hff hcur hx ht hn l hcase
      refine ⟨y, g1, g2, g3, g4, ?_⟩
      rw [share_taskWork, tw _ y g3]
      have e1 : taskWork { s with net := n } i x = taskWork s i x := rfl
      rw [e1]
      simp only [RemoteHost.share, List.length_nil] at g5 ⊢
      omega
  | spawned j past envs =>
    obtain ⟨z, n, r, hz, hn, hp, rfl⟩ := hspawned_step hs
    by_cases e : j = i
    · subst e
      rw [hx, Option.some.injEq] at hz
      subst hz
      have htn : s.tasks j = none := by
        cases htk : s.tasks j with
        | none => rfl
        | some q =>
          obtain ⟨x', k1, k2⟩ := hi.tasks j q.1 q.2 htk
          rw [hx, Option.some.injEq] at k1
          subst k1
          simp [RemoteStack.step, hx, RemoteAct.byStack, RemoteRun.step, k2.srv.2] at hn
      obtain ⟨y, g1, g2, g3, g4, g5⟩ := rstack_work (own := 1) (c := []) hi.net hff hcur hx ht hn l (.inr (.inl ⟨_, rfl, rfl, rfl, rfl⟩))
      refine ⟨y, g1, g2, g3, g4, ?_⟩
      rw [share_taskWork, tw _ y g3]
      have hini : (LocalRun.initial r.2 (s.setupOf x).plugins.length).work = (s.servers x.server).plugins.length + 11 := by
        simp [LocalRun.work, LocalRun.initial, unreadOut, unreadErr, RemoteHost.setupOf]
      simp only [taskWork, if_true, hini, htn, RemoteHost.share, isHostWork, beq_self_eq_true, List.length_nil] at g5 ⊢
      omega
    · obtain ⟨y, g1, g2, g3, g4, g5⟩ := rstack_work (own := 0) (c := []) hi.net hff hcur hx ht hn l (.inr (.inr ⟨.inl ⟨j, _, rfl, e⟩, rfl, rfl⟩))
      refine ⟨y, g1, g2, g3, g4, ?_⟩
      rw [share_taskWork, tw _ y g3]
      simp only [taskWork, Ne.symm e, if_false, RemoteHost.share, isHostWork, beq_iff_eq, e, List.length_nil] at g5 ⊢
      omega
  | loc j b =>
    obtain ⟨p, k, k', htk, hne, hstep, rfl⟩ := hloc_step hs
    obtain ⟨z, hz, hta⟩ := hi.tasks j p k htk
    obtain ⟨la, hla⟩ := hta.reach
    by_cases e : j = i
    · subst e
      rw [hx, Option.some.injEq] at hz
      subst hz
      have hown : b.own = true := by
        rcases ha with ha | ha
        · simp only [isHostWork, Bool.and_eq_true] at ha; exact ha.1.2
        · simp [isHostElsewhere] at ha
      have hwk : (if isHostWork j (.loc j b) then 1 else 0) ≤ 1 := by split <;> omega
      have hlt := work_step (local_reach hla).2 hown hstep
      cases hostWrote hx hta.srv.1 (local_reach hla).1 hta.logs hta.result hstep with
      | wrote c o hb hnet he hn hp hr ho =>
        have hnp : isPipeline c = true → c = .srvRunOk := by
          intro hpp; cases c <;> first | rfl | (cases hpp; done) | (cases hb.1; done)
        obtain ⟨y, g1, g2, g3, g4, g5⟩ := rstack_work hi.net hff hcur hx ht hnet l (.inr (.inl ⟨_, rfl, hb.2.2, rfl, rfl⟩))
        refine ⟨y, g1, g2, g3, g4, ?_⟩
        rw [tw _ y g3]
        have := hp.2
        simp only [taskWork, if_true, htk] at g5 ⊢
        omega
      | nothing he _ _ =>
        refine ⟨x, by simp only [he]; exact hcur, by simp only [he]; exact hx, rfl, by simp only [he]; exact ht, ?_⟩
        simp only [taskWork, if_true, htk, he]
        omega
    · have hw0 : isHostWork i (.loc j b) = false := by simp [isHostWork, e]
      rw [hw0]
      cases hostWrote hz hta.srv.1 (local_reach hla).1 hta.logs hta.result hstep with
      | wrote c o hb hnet he hn hp hr ho =>
        obtain ⟨y, g1, g2, g3, g4, g5⟩ := rstack_work (own := 0) (c := []) hi.net hff hcur hx ht hnet l (.inr (.inr ⟨.inl ⟨j, _, rfl, e⟩, rfl, rfl⟩))
        refine ⟨y, g1, g2, g3, g4, ?_⟩
        rw [tw _ y g3]
        simp only [taskWork, Ne.symm e, if_false, List.length_nil] at g5 ⊢
        simp only [Bool.false_eq_true, if_false]
        omega
      | nothing he _ _ =>
        refine ⟨x, by simp only [he]; exact hcur, by simp only [he]; exact hx, rfl, by simp only [he]; exact ht, ?_⟩
        simp only [taskWork, Ne.symm e, if_false, he]
        simp

theorem undisturbed_spares {i : Nat} {a : HostAct} (h : isHostWork i a = true ∨ isHostElsewhere i a = true) : sparesCall i a = true := by
  cases a with
  | stk a =>
    cases a with
    | eng b => cases b <;> first | rfl | (simp [isHostWork, isHostElsewhere] at h; done)
    | net j b =>
      by_cases e : j = i
      · subst e
        simp only [isHostWork, isHostElsewhere, beq_self_eq_true, Bool.true_and, bne_self_eq_false, Bool.false_eq_true, or_false] at h
        cases b <;> first | (cases h; done) | simp [sparesCall, movesOf, isFault]
      · simp [sparesCall, movesOf, e]
    | signalFailed j b =>
      simp only [isHostWork, isHostElsewhere, bne_iff_ne, Bool.false_eq_true, false_or] at h
      simp [sparesCall, movesOf, h]
    | _ => simp [sparesCall, movesOf]
  | spawned j past envs => rfl
  | loc j b =>
    by_cases e : j = i
    · subst e
      simp only [isHostWork, isHostElsewhere, beq_self_eq_true, Bool.true_and, bne_self_eq_false, Bool.false_eq_true, or_false,
        Bool.and_eq_true, Bool.not_eq_true'] at h
      cases b <;> first | (cases h.1; done) | simp [sparesCall, h.2]
    · cases b <;> simp [sparesCall, e]

/-- **C96** bounds.  Unless time passes, an API user acts, something fails or the process does something, the engine, and the tasks of client, server
and local runner that execute a step make only finitely many moves: from every reachable state in which a step with a positive timeout is
executed through a call in which neither network nor server has failed there is a bound on them, whatever happens in other calls. -/
theorem C96_bounded (servers : Id → LocalSetup) (event : Option TriggerEvent) (job : Job) (t : Time) (acts : List HostAct)
    (s : RemoteHost) (h : HostReach servers event job t acts s) (st : Step) (i : Nat) (x : RemoteExec)
    (hex : ExecutingRemotely s.net st i x) (hc : NetClean i acts) (ht : 0 < st.timeout) :
    ∃ n, ∀ more s', HostUndisturbed i more → runs RemoteHost.step s more = some s' →
      (more.filter (isHostWork i)).length ≤ n := by
  have ht' : ∀ st', runningStep s.net.eng.pc = some st' → 0 < st'.timeout := by
    intro st' h'
    rw [(executing_pc hex).2, Option.some.injEq] at h'
    rw [← h']; exact ht
  obtain ⟨_, hcur, hx⟩ := hex
  let l : LocalRun := LocalRun.initial (startRun "" "" "" [] (fun _ => []) {} { command := x.command } []).2 0
  have key : ∀ (more : List HostAct) (acts : List HostAct) (s : RemoteHost) (x : RemoteExec), HostReach servers event job t acts s →
      NetClean i acts → s.net.current = some i → s.net.execs[i]? = some x →
      (∀ st, runningStep s.net.eng.pc = some st → 0 < st.timeout) → ∀ s', HostUndisturbed i more → runs RemoteHost.step s more = some s' →
      (more.filter (isHostWork i)).length ≤ 20 * taskWork s i x + callWork s.net.eng x.net l := by
    intro more
    induction more with
    | nil => intros; simp
    | cons a more ih =>
      intro acts s x h hc hcur hx ht s' hu hrun
      simp only [runs] at hrun
      cases hs : s.step a with
      | none => simp [hs] at hrun
      | some s1 =>
        rw [hs] at hrun
        obtain ⟨y, g1, g2, g3, g4, g5⟩ := host_work h hc hcur hx ht hs (hu a (by simp)) l
        have := ih (acts ++ [a]) s1 y (hostReach_snoc h hs) (sparesCall_clean hc (undisturbed_spares (hu a (by simp)))) g1 g2 g4 s'
          (fun b hb => hu b (by simp [hb])) hrun
        simp only [List.filter_cons]
        split at g5 <;> simp only [*, if_true, if_false, List.length_cons, Bool.false_eq_true] <;> omega
  exact ⟨_, fun more s' => key more acts s x h hc hcur hx ht' s'⟩

/-! ## The job -/

theorem absorbAll_runs (ws : List JobAct) : ∀ (m : JobM), ∃ bs, runs JobM.step m bs = some (m.absorbAll ws) := by
  induction ws with
  | nil => intro m; exact ⟨[], rfl⟩
  | cons w ws ih =>
    intro m
    obtain ⟨bs, hb⟩ := ih ((m.step w).getD m)
    cases hs : m.step w with
    | none => exact ⟨bs, by rw [hs] at hb; simpa [JobM.absorbAll, hs] using hb⟩
    | some m' =>
      refine ⟨w :: bs, ?_⟩
      rw [hs] at hb
      simp only [runs, hs, JobM.absorbAll, List.foldl_cons, Option.getD_some]
      exact hb

theorem signalArrives_eng (s : RemoteStack) (id : Id) (sid : StepId) (v : Signal) : (s.signalArrives id sid v).eng = s.eng := by
  simp only [RemoteStack.signalArrives]
  repeat' split
  all_goals rfl

/-- Whatever moves, the engine makes moves of its own. -/
theorem rstack_eng_runs {s s' : RemoteStack} {a : RemoteStackAct} (hs : s.step a = some s') :
    ∃ bs, runs JobM.step s.eng bs = some s'.eng := by
  have one : ∀ {m m' : JobM} {b : JobAct}, m.step b = some m' → ∃ bs, runs JobM.step m bs = some m' :=
    fun {m m' b} h => ⟨[b], by simp [runs, h]⟩
  have moved : ∀ (i : Nat) (x : RemoteExec) (n : RemoteRun), ∃ bs, runs JobM.step s.eng bs = some (s.moved i x n).eng := by
    intro i x n
    simp only [RemoteStack.moved]
    split
    · exact absorbAll_runs _ _
    · exact ⟨[], rfl⟩
  cases a with
  | eng b =>
    simp only [RemoteStack.step] at hs
    split at hs
    · cases hs
    · simp only [Option.map_eq_some_iff] at hs
      obtain ⟨m, hm, rfl⟩ := hs
      exact one hm
  | dispatched sv =>
    simp only [RemoteStack.step] at hs
    split at hs
    · simp only [Option.map_eq_some_iff] at hs
      obtain ⟨m, hm, rfl⟩ := hs
      exact one hm
    · cases hs
  | noRunner =>
    simp only [RemoteStack.step] at hs
    split at hs
    · simp only [Option.map_eq_some_iff] at hs
      obtain ⟨m, hm, rfl⟩ := hs
      obtain ⟨bs, hb⟩ := absorbAll_runs [.push (Log.ofError "No runner available"), .endStream (.failed 1)] s.eng
      exact ⟨bs ++ [.accept], runs_snoc.2 ⟨_, hb, hm⟩⟩
    · cases hs
  | net i b =>
    simp only [RemoteStack.step] at hs
    split at hs
    · split at hs
      · cases hs
      · simp only [Option.map_eq_some_iff] at hs
        obtain ⟨n, hn, rfl⟩ := hs
        repeat' split
        all_goals first
          | exact moved _ _ _
          | (rw [signalArrives_eng]; exact moved _ _ _)
    · cases hs
  | signalFailed i arrived =>
    simp only [RemoteStack.step] at hs
    split at hs
    · simp only [Option.map_eq_some_iff] at hs
      obtain ⟨n, hn, rfl⟩ := hs
      repeat' split
      all_goals first
        | exact moved _ _ _
        | (rw [signalArrives_eng]; exact moved _ _ _)
    · cases hs
  | stepCompleted sv r =>
    simp only [RemoteStack.step] at hs
    split at hs
    · simp only [Option.some.injEq] at hs
      subst hs
      exact ⟨[], rfl⟩
    · cases hs

/-- The engine alone: once a step has ended as cancelled, the job can only end as cancelled. -/
theorem cancelled_ends {job : Job} {t : Time} {ja : List JobAct} {m m2 : JobM} (h : JobReach job t ja m) (hpc : m.pc = .next)
    (r0 : StepRunResult) (hin : r0 ∈ m.acc.results) (hc : r0.state = .cancelled) (bs : List JobAct)
    (hr : runs JobM.step m bs = some m2) (r : JobRunResult) (hf : m2.pc = .finished r) :
    r.state = .cancelled ∧ ∃ i, r.steps[i]? = some r0 ∧
      ∀ (j : Nat) (x : StepRunResult), i < j → r.steps[j]? = some x → x.state = .skipped := by
  have key : ∀ (bs : List JobAct) (ja : List JobAct) (m : JobM), JobReach job t ja m → m.pc ≠ .init → r0 ∈ m.acc.results →
      (∀ r, m.pc = .finished r → r.state ≠ .skipped ∧ r.steps = m.acc.results) → runs JobM.step m bs = some m2 →
      r0 ∈ m2.acc.results ∧ (∀ r, m2.pc = .finished r → r.state ≠ .skipped ∧ r.steps = m2.acc.results) := by
    intro bs
    induction bs with
    | nil =>
      intro ja m _ _ h3 h4 h5
      simp only [runs, Option.some.injEq] at h5
      subst h5
      exact ⟨h3, h4⟩
    | cons b bs ih =>
      intro ja m h1 h2 h3 h4 h5
      simp only [runs] at h5
      cases hs : m.step b with
      | none => simp [hs] at h5
      | some m' =>
        rw [hs] at h5
        obtain ⟨k1, k2, k3⟩ := results_step hs h2 h4 (state_not_skipped h1)
        exact ih (ja ++ [b]) m' (runs_snoc.2 ⟨m, h1, hs⟩) k1 (k2 _ h3) k3 h5
  obtain ⟨k2, k3⟩ := key bs ja m h (by rw [hpc]; simp) hin (fun r hr => by rw [hpc] at hr; simp at hr) hr
  obtain ⟨k4, k5⟩ := k3 r hf
  have hja : JobReach job t (ja ++ bs) m2 := by
    unfold JobReach at h ⊢
    rw [runs_append, h]
    exact hr
  rw [← k5] at k2
  obtain ⟨i, hi, e⟩ := List.getElem_of_mem k2
  obtain ⟨f1, f2⟩ := C23_cancelled_step_ends_job job t (ja ++ bs) m2 hja r hf k4 i hi (by rw [e]; exact hc)
  refine ⟨f1, i, by rw [List.getElem?_eq_getElem hi, e], fun j x hij hx => ?_⟩
  obtain ⟨hj, e'⟩ := List.getElem?_eq_some_iff.1 hx
  rw [← e']
  exact f2 j hj hij

/-- **C95** Once a step executed remotely has ended as cancelled, whatever happens, if the job ends, its result is `Cancelled` and all
later steps are skipped. -/
theorem C95_job (job : Job) (t : Time) (acts : List RemoteStackAct) (s s' s2 : RemoteStack)
    (h : RemoteStackReach job t acts s') (r0 : StepRunResult) (hend : RemotelyEnded s s' r0) (hc : r0.state = .cancelled)
    (more : List RemoteStackAct) (hm : runs RemoteStack.step s' more = some s2) (r : JobRunResult) (hf : s2.eng.pc = .finished r) :
    r.state = .cancelled ∧ ∃ i, r.steps[i]? = some r0 ∧
      ∀ (j : Nat) (x : StepRunResult), i < j → r.steps[j]? = some x → x.state = .skipped := by
  obtain ⟨ja, hja⟩ := (rstackInv_reach h).eng
  have key : ∀ (more : List RemoteStackAct) (s' : RemoteStack), runs RemoteStack.step s' more = some s2 →
      ∃ bs, runs JobM.step s'.eng bs = some s2.eng := by
    intro more
    induction more with
    | nil => intro s' h; simp only [runs, Option.some.injEq] at h; subst h; exact ⟨[], rfl⟩
    | cons a more ih =>
      intro s' h
      simp only [runs] at h
      cases hs : s'.step a with
      | none => simp [hs] at h
      | some s1 =>
        rw [hs] at h
        obtain ⟨b1, e1⟩ := rstack_eng_runs hs
        obtain ⟨b2, e2⟩ := ih s1 h
        exact ⟨b1 ++ b2, by rw [runs_append, e1]; exact e2⟩
  obtain ⟨bs, hb⟩ := key more s' hm
  exact cancelled_ends hja hend.1 r0 (by rw [hend.2]; simp) hc bs hb r hf

/-- **C96** and on servers that execute the steps locally. -/
theorem C96_job (servers : Id → LocalSetup) (event : Option TriggerEvent) (job : Job) (t : Time) (acts : List HostAct)
    (s s' s2 : RemoteHost) (h : HostReach servers event job t acts s') (r0 : StepRunResult) (hend : EndedThere s s' r0)
    (hc : r0.state = .cancelled) (more : List HostAct) (hm : runs RemoteHost.step s' more = some s2) (r : JobRunResult)
    (hf : s2.net.eng.pc = .finished r) :
    r.state = .cancelled ∧ ∃ i, r.steps[i]? = some r0 ∧
      ∀ (j : Nat) (x : StepRunResult), i < j → r.steps[j]? = some x → x.state = .skipped := by
  have key : ∀ (more : List HostAct) (s' : RemoteHost), runs RemoteHost.step s' more = some s2 →
      ∃ bs, runs RemoteStack.step s'.net bs = some s2.net := by
    intro more
    induction more with
    | nil => intro s' h; simp only [runs, Option.some.injEq] at h; subst h; exact ⟨[], rfl⟩
    | cons a more ih =>
      intro s' h
      simp only [runs] at h
      cases hs : s'.step a with
      | none => simp [hs] at h
      | some s1 =>
        rw [hs] at h
        obtain ⟨b2, e2⟩ := ih s1 h
        rcases host_net_step hs with ⟨b, _, _, e⟩ | ⟨i, b, _, _, _, e, _⟩ | ⟨e, _⟩
        · exact ⟨b :: b2, by simp only [runs, e]; exact e2⟩
        · exact ⟨.net i b :: b2, by simp only [runs, e]; exact e2⟩
        · exact ⟨b2, by rw [← e]; exact e2⟩
  obtain ⟨bs, hb⟩ := key more s' hm
  obtain ⟨sacts, hinv⟩ := hostInv_reach h
  exact C95_job job t sacts s.net s'.net s2.net hinv.net r0 hend hc bs hb r hf

/-! ## The hypotheses are met -/

namespace HostEx
/-- Every server has a runner without plugins on a Linux machine. -/
def servers : Id → LocalSetup := fun _ => StackEx.setup
/-- The job of `MachineEx` is started, its first step handed to the server `a`, whose runner has started the container. -/
def go : List HostAct :=
  [.stk (.eng (.check true)), .stk (.eng (.nextStep true (MachineEx.st 0))), .stk (.eng .call), .stk (.dispatched "a"), .stk (.eng .enter),
    .stk (.net 0 .rpcOk), .spawned 0 (fun _ => []) [], .loc 0 .begin_, .loc 0 .mkdirOk, .loc 0 .entryOk, .loc 0 .spawnOk]
/-- A message of the server's runner is sent and read. -/
def carry : List HostAct := [.stk (.net 0 .srvPoll), .stk (.net 0 .srvSend), .stk (.net 0 .xmit), .stk (.net 0 .cliNext), .stk (.eng .recv)]
/-- The process writes a line. -/
def quiet : List HostAct := go ++ [.loc 0 (.childOut "a"), .loc 0 .readOut] ++ carry ++ [.stk (.eng .enter)]
/-- Then it exits with 3. -/
def over : List HostAct :=
  quiet ++ [.loc 0 (.exit (some 3)), .loc 0 .closeOut, .loc 0 .closeErr]
/-- What is left to do then. -/
def overRest : List HostAct :=
  [.loc 0 .readErr, .loc 0 .waitOk, .stk (.net 0 .srvPoll), .stk (.net 0 .srvResult), .stk (.net 0 .srvSend), .stk (.net 0 .xmit),
    .stk (.net 0 .cliNext)]
/-- What is done when the job is cancelled. -/
def stop : List HostAct :=
  [.stk (.eng .jobSignal), .stk (.net 0 .cliSignal), .stk (.net 0 .sigOk), .stk (.eng .enter), .loc 0 .sigReady, .loc 0 .killDone,
    .stk (.net 0 .srvPoll), .stk (.net 0 .srvResult), .stk (.net 0 .srvSend), .stk (.net 0 .xmit), .stk (.net 0 .cliNext), .stk (.eng .recv)]
/-- The state a schedule leads to. -/
def after (acts : List HostAct) : RemoteHost :=
  (runs RemoteHost.step (RemoteHost.initial servers none MachineEx.job 0) acts).getD (RemoteHost.initial servers none MachineEx.job 0)
/-- The call of the first step. -/
def call (acts : List HostAct) : RemoteExec :=
  ((after acts).net.execs[0]?).getD { server := "", command := (MachineEx.st 0).toCommand }
/-- The task of the first call. -/
def task (acts : List HostAct) : LocalRun :=
  (((after acts).tasks 0).map Prod.snd).getD (LocalRun.initial (LocalEx.plan .docker) 0)
end HostEx

example : HostReach HostEx.servers none MachineEx.job 0 HostEx.over (HostEx.after HostEx.over) ∧
    (∃ p, ExecutingThere (HostEx.after HostEx.over) (MachineEx.st 0) 0 (HostEx.call HostEx.over) p (HostEx.task HostEx.over)) ∧
    0 < (MachineEx.st 0).timeout ∧
    runs RemoteHost.step (HostEx.after HostEx.over) HostEx.overRest = some (HostEx.after (HostEx.over ++ HostEx.overRest)) ∧
    (HostEx.after (HostEx.over ++ HostEx.overRest)).step (.stk (.eng .recv)) =
      some (HostEx.after (HostEx.over ++ HostEx.overRest ++ [.stk (.eng .recv)])) ∧
    (HostEx.after (HostEx.over ++ HostEx.overRest ++ [.stk (.eng .recv)])).net.eng.pc = .next ∧
    EndedThere (HostEx.after (HostEx.over ++ HostEx.overRest)) (HostEx.after (HostEx.over ++ HostEx.overRest ++ [.stk (.eng .recv)]))
      { id := ⟨"w", "j", 0⟩, state := .failed, exitCode := some 3, startedAt := some 0, completedAt := some 0 } ∧
    (HostEx.task (HostEx.over ++ HostEx.overRest)).exitSeen = some (some 3) ∧
    (HostEx.task HostEx.over).stream.logs = [Log.ofLog "a"] := by
  refine ⟨by rfl, ⟨_, ⟨.inr ⟨0, 2, by rfl⟩, by rfl, by rfl⟩, by rfl⟩, by decide, by rfl, by rfl, by rfl, ⟨by rfl, by rfl⟩, by rfl, by rfl⟩

example : ProcessOver (HostEx.task HostEx.over) := by
  intro ch hch
  have : (HostEx.task HostEx.over).child =
    some { outQ := [], errQ := [], outOpen := false, errOpen := false, exit := some (some 3) } := by rfl
  rw [this, Option.some.injEq] at hch
  subst hch
  decide

example : HostUndisturbed 0 HostEx.overRest ∧ NetClean 0 (HostEx.over ++ HostEx.overRest ++ [.stk (.eng .recv)]) := by
  refine ⟨?_, ?_⟩
  · intro a ha
    simp only [HostEx.overRest, List.mem_cons, List.not_mem_nil, or_false] at ha
    rcases ha with rfl | rfl | rfl | rfl | rfl | rfl | rfl <;> exact .inl rfl
  · intro b hb
    simp only [HostEx.over, HostEx.overRest, HostEx.quiet, HostEx.go, HostEx.carry, List.mem_append, List.mem_cons, List.not_mem_nil, or_false,
      HostAct.stk.injEq, reduceCtorEq, false_or, or_assoc] at hb
    unfold FaultFree
    rcases hb with rfl | rfl | rfl | rfl | rfl | rfl | rfl | rfl | rfl | rfl | rfl | rfl | rfl | rfl | rfl | rfl | rfl | rfl <;> decide +kernel

example : HostReach HostEx.servers none MachineEx.job 0 HostEx.quiet (HostEx.after HostEx.quiet) ∧
    (∃ p, ExecutingThere (HostEx.after HostEx.quiet) (MachineEx.st 0) 0 (HostEx.call HostEx.quiet) p (HostEx.task HostEx.quiet) ∧ p.kind = .docker) ∧
    Running (HostEx.task HostEx.quiet) ∧ (HostEx.after HostEx.quiet).net.eng.sig.signal = none ∧
    (handedOut (HostEx.after HostEx.quiet).net.eng.acc.trace) = [(MachineEx.st 0).id] ∧
    (HostEx.after HostEx.quiet).step (.stk (.eng .cancel)) = some (HostEx.after (HostEx.quiet ++ [.stk (.eng .cancel)])) ∧
    (HostEx.after (HostEx.quiet ++ [.stk (.eng .cancel)])).net.eng.answers = [true] ∧
    runs RemoteHost.step (HostEx.after (HostEx.quiet ++ [.stk (.eng .cancel)])) HostEx.stop =
      some (HostEx.after (HostEx.quiet ++ [.stk (.eng .cancel)] ++ HostEx.stop)) ∧
    EndedThere (HostEx.after HostEx.quiet) (HostEx.after (HostEx.quiet ++ [.stk (.eng .cancel)] ++ HostEx.stop))
      { id := ⟨"w", "j", 0⟩, state := .cancelled, exitCode := none, startedAt := some 0, completedAt := some 0 } := by
  refine ⟨by rfl, ⟨_, ⟨⟨.inr ⟨0, 2, by rfl⟩, by rfl, by rfl⟩, by rfl⟩, by rfl⟩, ⟨.inl (by rfl), _, by rfl, by rfl⟩, by rfl, by rfl, by rfl, by rfl,
    by rfl, ⟨by rfl, by rfl⟩⟩

example : ∀ a ∈ HostEx.stop, sparesCall 0 a = true ∧ a ≠ .stk (.eng .timer) := by
  intro a ha
  simp only [HostEx.stop, List.mem_cons, List.not_mem_nil, or_false] at ha
  rcases ha with rfl | rfl | rfl | rfl | rfl | rfl | rfl | rfl | rfl | rfl | rfl | rfl <;> exact ⟨rfl, by simp⟩

/-- Before the server has called its runner. -/
example : ∃ x, ExecutingRemotely (HostEx.after (HostEx.go.take 6)).net (MachineEx.st 0) 0 x ∧ (HostEx.after (HostEx.go.take 6)).tasks 0 = none :=
  ⟨_, ⟨.inr ⟨0, 2, by rfl⟩, by rfl, by rfl⟩, by rfl⟩

end AstroRun
