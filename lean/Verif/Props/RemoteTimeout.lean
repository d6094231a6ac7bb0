import Verif.Props.RemoteHost

/-!
# C97: a silent step on a remote server times out

As C89 for the local runner, with client, network and server in between.
-/

namespace AstroRun
open Spec

/-- Moves of others than the engine do not change how much it has read. -/
theorem absorbAll_index {ws : List JobAct} (hw : ∀ w ∈ ws, (∃ l, w = .push l) ∨ ∃ r, w = .endStream r) (m : JobM) :
    (m.absorbAll ws).stream.index = m.stream.index := by
  induction ws generalizing m with
  | nil => rfl
  | cons w ws ih =>
    have : m.absorbAll (w :: ws) = ((m.step w).getD m).absorbAll ws := rfl
    rw [this, ih (fun x hx => hw x (by simp [hx]))]
    rcases hw w (by simp) with ⟨l, rfl⟩ | ⟨r, rfl⟩ <;> simp only [JobM.step] <;> split <;>
      first | rfl | (simp [StreamState.endSeq_index]; done) | (simp only [Option.getD_some]; rw [StreamState.endSeq_index])

theorem rstack_quiet_index {s s' : RemoteStack} {a : RemoteStackAct} (hs : s.step a = some s') (ha : ∀ b, a ≠ .eng b)
    (hc : ∀ st t0, s.eng.pc ≠ .calling st t0) : s'.eng.stream.index = s.eng.stream.index := by
  have mov : ∀ i x n, (s.moved i x n).eng.stream.index = s.eng.stream.index := by
    intro i x n
    simp only [RemoteStack.moved]
    split
    · exact absorbAll_index (writes_runner _ _) _
    · rfl
  cases a with
  | eng b => exact absurd rfl (ha b)
  | dispatched sv => simp [RemoteStack.step, hc] at hs
  | noRunner => simp [RemoteStack.step, hc] at hs
  | net i b =>
    obtain ⟨x, n, _, _, _, hcase⟩ := rnet_step hs
    rcases hcase with ⟨_, rfl⟩ | ⟨v, _, _, rfl⟩ | ⟨_, _, _, rfl⟩
    · exact mov i x n
    · rw [(signalArrives_same _ _ _ _).1]; exact mov i x n
    · exact mov i x n
  | signalFailed i b =>
    obtain ⟨x, n, v, _, _, _, rfl⟩ := rfail_step hs
    split
    · rw [(signalArrives_same _ _ _ _).1]; exact mov i x n
    · exact mov i x n
  | stepCompleted sv r =>
    simp only [RemoteStack.step] at hs
    split at hs <;> cases hs
    rfl

/-- Without faults, what the engine can read is what the task has written, from the beginning. -/
theorem host_engine_reads {servers : Id → LocalSetup} {event : Option TriggerEvent} {job : Job} {t : Time} {acts : List HostAct}
    {sacts : List RemoteStackAct} {s : RemoteHost} (hi : HostInv servers event job t acts sacts s) {st : Step} {i : Nat} {x : RemoteExec}
    {p : RunPlan} {l : LocalRun} (hex : ExecutingThere s st i x p l) (hc : NetClean i acts) (hno : l.stream.result = none) :
    s.net.eng.stream.logs <+: l.stream.logs ∧ s.net.eng.stream.result = none := by
  obtain ⟨hr, _⟩ := executing_pc hex.1
  obtain ⟨e1, e2, _⟩ := (rstackInv_reach hi.net).link i x hr hex.1.2.1 hex.1.2.2
  obtain ⟨na, hna, hfil⟩ := (rstackInv_reach hi.net).nets i x hex.1.2.2
  have hff : FaultFree na := by
    have := (filter_rel na).2.2.2
    rw [hfil] at this
    exact this.1 (host_clean hi hc)
  have hcl := clean_reach hna hff
  have hta := (host_link hi hex.1 hex.2).1
  refine ⟨?_, ?_⟩
  · rw [← e1, hcl.logs, ← hta.logs]
    refine (remote_reach hna).logs_prefix.trans ?_
    rw [(remote_reach hna).readIn.eq]
    exact List.take_prefix _ _
  · rw [← e2, hcl.result]
    cases hw : wireResults x.net.clientGot with
    | nil => rfl
    | cons r rs =>
      obtain ⟨_, _, _, _, r, hr, _⟩ := (remote_reach hna).last (by rw [hw]; simp)
      rw [hta.result, hno] at hr
      cases hr

/-- Nothing is there for the engine to receive, its timer has expired; the process runs. -/
structure HostExpired (st : Step) (i : Nat) (p : RunPlan) (rs : List StepRunResult) (s : RemoteHost) (x : RemoteExec) (l : LocalRun) : Prop where
  hex : ExecutingThere s st i x p l
  hrs : s.net.eng.acc.results = rs
  hd : (handedOut s.net.eng.acc.trace).Nodup
  run : Running l
  nosig : s.net.eng.sig.signal = none
  pc : ∃ t0 d, s.net.eng.pc = .select st t0 d ∧ d ≤ s.net.eng.now
  read : l.stream.logs.length ≤ s.net.eng.stream.index
  out : unreadOut l = []
  err : unreadErr l = []
  job : ∀ js, s.net.eng.jobSig = some js → js.signal = none ∨ js.isNotified = true

theorem hostExpired_step {servers : Id → LocalSetup} {event : Option TriggerEvent} {job : Job} {t : Time} {acts : List HostAct}
    {s s' : RemoteHost} {a : HostAct} (hreach : HostReach servers event job t acts s) {st : Step} {i : Nat} {p : RunPlan}
    {rs : List StepRunResult} {x : RemoteExec} {l : LocalRun} (hc : NetClean i acts) (h : HostExpired st i p rs s x l)
    (ha : sparesCall i a = true) (hac : a ≠ .stk (.eng .cancel)) (hao : writesThere i a = false) (hs : s.step a = some s') :
    (∃ x' l', HostExpired st i p rs s' x' l') ∨ HostStruck (some .timeout) .timeout st i p rs s' := by
  obtain ⟨sacts, hi⟩ := hostInv_reach hreach
  obtain ⟨sacts', hi'⟩ := hostInv_reach (hostReach_snoc hreach hs)
  obtain ⟨la, hla⟩ := (host_link hi h.hex.1 h.hex.2).1.reach
  have hlsig : l.sig.signal = none := by
    cases e : l.sig.signal with
    | none => rfl
    | some w => have := host_sig hi h.hex.1 h.hex.2 h.hd e; rw [h.nosig] at this; cases this
  obtain ⟨hpre, hnone⟩ := host_engine_reads hi h.hex hc (running_noresult (local_reach hla).1 h.run)
  obtain ⟨t0, d, hpc, hd⟩ := h.pc
  have hnc : ∀ st t0, s.net.eng.pc ≠ .calling st t0 := by intro st t0 e; rw [e] at hpc; cases hpc
  -- the task after the move
  obtain ⟨l', k1, k2, k3, k4, k5⟩ : ∃ l', s'.tasks i = some (p, l') ∧ Running l' ∧ l'.stream = l.stream ∧ unreadOut l' = [] ∧ unreadErr l' = [] := by
    rcases host_task_step hi hs h.hex.2 with ⟨sg, h1, _⟩ | ⟨b, l', rfl, h2, h3, h4⟩
    · obtain ⟨q1, _, q3, _⟩ := share_stream l sg
      refine ⟨_, h1, running_share h.run sg, q1, ?_, ?_⟩
      · simpa only [unreadOut, q3] using h.out
      · simpa only [unreadErr, q3] using h.err
    · obtain ⟨f1, f2⟩ := sparesCall_own ha
      have hbo : ∀ y, b ≠ .childOut y ∧ b ≠ .childErr y := by
        intro y
        constructor <;> (intro e; subst e; simp [writesThere] at hao)
      obtain ⟨q1, q2, q3⟩ := silent_step f1 f2 h2 hlsig h.run h.out h.err hbo h3
      exact ⟨l', h4, running_step f1 f2 h2 hlsig h.run h3, q3, q1, q2⟩
  -- moves that leave the engine alone
  have quiet : ∀ b, s.net.step b = some s'.net → (∀ c, b ≠ .eng c) → ∃ x' l', HostExpired st i p rs s' x' l' := by
    intro b hb hne
    obtain ⟨⟨o, ho⟩, _⟩ := rstack_quiet hb hne hnc
    have hidx := rstack_quiet_index hb hne hnc
    cases exec_move h.hex.1 hb with
    | ended e => rw [ho] at e; simp only at e; rw [hpc] at e; cases e
    | going y h1 h2 h3 _ _ =>
      refine ⟨y, l', ⟨h1, k1⟩, by rw [h2, h.hrs], by rw [h3]; exact h.hd, k2, by rw [ho]; exact h.nosig,
        ⟨t0, d, by rw [ho]; exact hpc, by rw [ho]; exact hd⟩, by rw [k3, hidx]; exact h.read, k4, k5, by rw [ho]; exact h.job⟩
  rcases host_net_step hs with ⟨b, rfl, _, hb⟩ | ⟨j, b, _, _, _, hb, _⟩ | ⟨hb, _⟩
  · by_cases hbe : ∃ c, b = .eng c
    · obtain ⟨c, rfl⟩ := hbe
      obtain ⟨h1, h2⟩ : c.byRunner = false ∧ s.net.eng.step c = some s'.net.eng := by
        rcases rstack_eng_step hb with ⟨d, e, h1, h2⟩ | ⟨h1, _⟩
        · cases e; exact ⟨h1, h2⟩
        · exact absurd rfl (h1 c)
      have hm := exec_move h.hex.1 hb
      by_cases hct : c = .timer
      · subst hct
        right
        simp only [JobM.step, hpc, hd, if_true, Option.some.injEq] at h2
        have hsig' : s'.net.eng.sig.signal = some .timeout := by rw [← h2]; simp [set_signal, h.nosig]
        cases hm with
        | ended e => rw [← h2] at e; cases e
        | going y g1 g2 g3 _ _ =>
          refine .going y l' ⟨g1, k1⟩ (by rw [g2, h.hrs]) (by rw [g3]; exact h.hd) (.inl hsig') (fun w hw => by cases hw; exact hsig') ?_
          cases hsg : l'.sig.signal with
          | none => exact .inl ⟨k2, rfl⟩
          | some w =>
            have := host_sig hi' g1 k1 (by rw [g3]; exact h.hd) hsg
            rw [hsig'] at this
            cases this
            obtain ⟨la', hla'⟩ := (host_link hi' g1 k1).1.reach
            exact .inr (running_struck (local_reach hla').1 k2 hsg)
      · left
        cases c <;> simp only [JobAct.byRunner, reduceCtorEq, ne_eq, not_true_eq_false, sparesCall] at h1 hct hac ha <;>
          simp only [JobM.step, hpc, reduceCtorEq] at h2
        case tick n =>
          simp only [Option.some.injEq] at h2
          cases hm with
          | ended e => rw [← h2] at e; simp only [reduceCtorEq] at e
          | going y g1 g2 g3 _ _ =>
            exact ⟨y, l', ⟨g1, k1⟩, by rw [g2, h.hrs], by rw [g3]; exact h.hd, k2, by rw [← h2]; exact h.nosig,
              ⟨t0, d, by rw [← h2], by rw [← h2]; exact Nat.le_trans hd (Nat.le_add_right _ _)⟩,
              by rw [k3, ← h2]; exact h.read, k4, k5, by rw [← h2]; exact h.job⟩
        case jobSignal =>
          split at h2
          · rename_i js _ hjs
            split at h2 <;> simp only [Option.some.injEq, reduceCtorEq] at h2
            rename_i hpoll
            obtain ⟨q1, q2, _⟩ := poll_some hpoll
            rcases h.job js hjs with e | e
            · simp [e] at q2
            · simp [e] at q1
          · simp at h2
        case recv =>
          have hle : s.net.eng.stream.logs.length ≤ s.net.eng.stream.index := Nat.le_trans hpre.length_le h.read
          have : s.net.eng.stream.logs[s.net.eng.stream.index]? = none := List.getElem?_eq_none_iff.2 hle
          simp [StreamState.poll, this, hnone] at h2
    · exact .inl (quiet b hb fun c e => hbe ⟨c, e⟩)
  · exact .inl (quiet _ hb (by simp))
  · left
    refine ⟨x, l', ⟨by rw [hb]; exact h.hex.1, k1⟩, by rw [hb, h.hrs], by rw [hb]; exact h.hd, k2, by rw [hb]; exact h.nosig,
      by rw [hb]; exact h.pc, by rw [k3, hb]; exact h.read, k4, k5, by rw [hb]; exact h.job⟩

/-- **C97** A step whose process keeps running in silence on a remote server: if neither network nor server failed in its call, the engine waits,
everything the process wrote has been read and has reached the engine, and no signal is on its way, then once the time of the wait (the step's
`timeout` after the last thing received) is over, whatever else happens short of the process writing something or exiting, a failure or a cancel,
the step either has ended, as failed with exit code 123 and with its container killed on the server, or is still executed and some task can go on
(by `C96_bounded`, not forever). -/
theorem C97_idle_timeout (servers : Id → LocalSetup) (event : Option TriggerEvent) (job : Job) (t : Time) (acts : List HostAct)
    (s s1 : RemoteHost) (h : HostReach servers event job t acts s) (st : Step) (i : Nat) (x : RemoteExec) (p : RunPlan) (l : LocalRun)
    (hex : ExecutingThere s st i x p l) (hc : NetClean i acts) (hd : (handedOut s.net.eng.acc.trace).Nodup) (t0 d : Time)
    (hpc : s.net.eng.pc = .select st t0 d) (hrun : Running l) (hno : s.net.eng.sig.signal = none)
    (hjob : ∀ js, s.net.eng.jobSig = some js → js.signal = none ∨ js.isNotified = true)
    (hread : l.stream.logs.length ≤ s.net.eng.stream.index) (hout : unreadOut l = []) (herr : unreadErr l = [])
    (n : Nat) (hn : d ≤ s.net.eng.now + n) (hc1 : s.step (.stk (.eng (.tick n))) = some s1) (more : List HostAct) (s' : RemoteHost)
    (hm : ∀ a ∈ more, sparesCall i a = true ∧ a ≠ .stk (.eng .cancel) ∧ writesThere i a = false)
    (hr : runs RemoteHost.step s1 more = some s') :
    (∃ r l', EndedThere s s' r ∧ r.id = st.id ∧ r.state = .failed ∧ r.exitCode = some 123 ∧ s'.tasks i = some (p, l') ∧
      (p.kind = .docker → l'.kills = ["docker kill " ++ p.dirs.dockerName])) ∨
    (∃ x' l', ExecutingThere s' st i x' p l' ∧ ∃ a, isHostWork i a = true ∧ (s'.step a).isSome = true) := by
  have hc' : NetClean i (acts ++ [.stk (.eng (.tick n))]) := sparesCall_clean hc rfl
  have hreach1 := hostReach_snoc h hc1
  have hexp : ∃ x1 l1, HostExpired st i p s.net.eng.acc.results s1 x1 l1 := by
    obtain ⟨sacts, hi⟩ := hostInv_reach h
    have hnet : s.net.step (.eng (.tick n)) = some s1.net := by
      rcases host_net_step hc1 with ⟨b, e, _, hb⟩ | ⟨_, _, _, _, _, _, e⟩ | ⟨_, e⟩
      · cases e; exact hb
      · exact absurd rfl (e _)
      · exact absurd rfl (e _)
    have heng : s.net.eng.step (.tick n) = some s1.net.eng := by
      rcases rstack_eng_step hnet with ⟨b, e, _, hb⟩ | ⟨e, _⟩
      · cases e; exact hb
      · exact absurd rfl (e _)
    simp only [JobM.step, Option.some.injEq] at heng
    rcases host_task_step hi hc1 hex.2 with ⟨sg, k1, _⟩ | ⟨b, l', e, _⟩
    · obtain ⟨q1, _, q3, _⟩ := share_stream l sg
      cases exec_move hex.1 hnet with
      | ended e => rw [← heng] at e; simp only at e; rw [hpc] at e; cases e
      | going y g1 g2 g3 _ _ =>
        exact ⟨y, _, ⟨g1, k1⟩, g2, by rw [g3]; exact hd, running_share hrun sg, by rw [← heng]; exact hno,
          ⟨t0, d, by rw [← heng]; exact hpc, by rw [← heng]; exact hn⟩, by rw [q1, ← heng]; exact hread,
          by simpa only [unreadOut, q3] using hout, by simpa only [unreadErr, q3] using herr, by rw [← heng]; exact hjob⟩
    · cases e
  have key : ∀ (more : List HostAct) (acts : List HostAct) (s1 : RemoteHost), HostReach servers event job t acts s1 → NetClean i acts →
      ((∃ x1 l1, HostExpired st i p s.net.eng.acc.results s1 x1 l1) ∨
        HostStruck (some .timeout) .timeout st i p s.net.eng.acc.results s1) →
      (∀ a ∈ more, sparesCall i a = true ∧ a ≠ .stk (.eng .cancel) ∧ writesThere i a = false) →
      runs RemoteHost.step s1 more = some s' → ∃ acts, HostReach servers event job t acts s' ∧ NetClean i acts ∧
      ((∃ x1 l1, HostExpired st i p s.net.eng.acc.results s' x1 l1) ∨
        HostStruck (some .timeout) .timeout st i p s.net.eng.acc.results s') := by
    intro more
    induction more with
    | nil =>
      intro acts s1 h1 h2 h3 _ hr
      simp only [runs, Option.some.injEq] at hr
      subst hr
      exact ⟨acts, h1, h2, h3⟩
    | cons a more ih =>
      intro acts s1 h1 h2 h3 hm hr
      simp only [runs] at hr
      cases hs : s1.step a with
      | none => simp [hs] at hr
      | some s2 =>
        rw [hs] at hr
        obtain ⟨m1, m2, m3⟩ := hm a (by simp)
        refine ih (acts ++ [a]) s2 (hostReach_snoc h1 hs) (sparesCall_clean h2 m1) ?_ (fun b hb => hm b (by simp [hb])) hr
        rcases h3 with ⟨x1, l1, h3⟩ | h3
        · exact hostExpired_step h1 h2 h3 m1 m2 m3 hs
        · exact .inr (hostStruck_step h1 h2 h3 m1 (by simp) hs)
  obtain ⟨acts', g1, g2, g3⟩ := key more _ s1 hreach1 hc' (.inl hexp) hm hr
  rcases g3 with ⟨x1, l1, hp⟩ | g3
  · right
    obtain ⟨t1, d1, e, e'⟩ := hp.pc
    refine ⟨x1, l1, hp.hex, .stk (.eng .timer), rfl, stk_enabled rfl ?_⟩
    simp [RemoteStack.step, JobAct.byRunner, JobM.step, e, e']
  · rcases hostStruck_claim g1 g2 g3 with ⟨r, l', q1, q2, q3, q4⟩ | ⟨x', l', q1, a, q2, _, q3⟩
    · exact .inl ⟨r, l', q1, q2, q3.1, q3.2, q4⟩
    · exact .inr ⟨x', l', q1, a, q2, q3⟩

/-- What is done when the step times out. -/
def HostEx.expire : List HostAct :=
  [.stk (.eng .timer), .stk (.net 0 .cliSignal), .stk (.net 0 .sigOk), .stk (.eng .enter), .loc 0 .sigReady, .loc 0 .killDone,
    .stk (.net 0 .srvPoll), .stk (.net 0 .srvResult), .stk (.net 0 .srvSend), .stk (.net 0 .xmit), .stk (.net 0 .cliNext), .stk (.eng .recv)]

example : HostReach HostEx.servers none MachineEx.job 0 HostEx.quiet (HostEx.after HostEx.quiet) ∧
    (HostEx.after HostEx.quiet).net.eng.pc = .select (MachineEx.st 0) 0 2 ∧
    (HostEx.after HostEx.quiet).net.eng.jobSig = some {} ∧
    (HostEx.task HostEx.quiet).stream.logs.length = 1 ∧ (HostEx.after HostEx.quiet).net.eng.stream.index = 1 ∧
    unreadOut (HostEx.task HostEx.quiet) = [] ∧ unreadErr (HostEx.task HostEx.quiet) = [] ∧
    (HostEx.after HostEx.quiet).step (.stk (.eng (.tick 2))) = some (HostEx.after (HostEx.quiet ++ [.stk (.eng (.tick 2))])) ∧
    runs RemoteHost.step (HostEx.after (HostEx.quiet ++ [.stk (.eng (.tick 2))])) HostEx.expire =
      some (HostEx.after (HostEx.quiet ++ [.stk (.eng (.tick 2))] ++ HostEx.expire)) ∧
    EndedThere (HostEx.after HostEx.quiet) (HostEx.after (HostEx.quiet ++ [.stk (.eng (.tick 2))] ++ HostEx.expire))
      { id := ⟨"w", "j", 0⟩, state := .failed, exitCode := some 123, startedAt := some 0, completedAt := some 2 } := by
  refine ⟨by rfl, by rfl, by rfl, by rfl, by rfl, by rfl, by rfl, by rfl, by rfl, ⟨by rfl, by rfl⟩⟩

example : ∀ a ∈ HostEx.expire, sparesCall 0 a = true ∧ a ≠ .stk (.eng .cancel) ∧ writesThere 0 a = false := by
  intro a ha
  simp only [HostEx.expire, List.mem_cons, List.not_mem_nil, or_false] at ha
  rcases ha with rfl | rfl | rfl | rfl | rfl | rfl | rfl | rfl | rfl | rfl | rfl | rfl <;> exact ⟨rfl, by simp, rfl⟩

end AstroRun
