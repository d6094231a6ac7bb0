import Verif.Lemmas.RemoteEngineInv
import Verif.Props.RemoteStack

/-! # Lemmas: an engine on the remote runner, as a whole -/

namespace AstroRun
open Spec

/-! ## What the engine read from a call -/

/-- What the engine has read when it sees the end of a call's stream, and the result it finds. -/
theorem done_reach {na : List RemoteAct} {m : RemoteRun} (h : RemoteReach na m) :
    m.engineDone = true → ∀ y, m.outer.result = some y → ∃ k own, m.engineGot = (runnerLogs na).take k ++ own ∧
      (own = [] ∨ ∃ l, own = [l] ∧ OwnError l) ∧ (runnerResult na = some y ∨ y = .failed 1 ∧ own ≠ []) := by
  refine runs_induct (P := fun na m => m.engineDone = true → ∀ y, m.outer.result = some y → ∃ k own,
    m.engineGot = (runnerLogs na).take k ++ own ∧ (own = [] ∨ ∃ l, own = [l] ∧ OwnError l) ∧
    (runnerResult na = some y ∨ y = .failed 1 ∧ own ≠ [])) (by intro h; cases h) ?_ h
  intro na a m m' hr ih hs hd y hy
  have later : m.engineDone = true → m'.engineGot = m.engineGot → ∃ k own, m'.engineGot = (runnerLogs (na ++ [a])).take k ++ own ∧
      (own = [] ∨ ∃ l, own = [l] ∧ OwnError l) ∧ (runnerResult (na ++ [a]) = some y ∨ y = .failed 1 ∧ own ≠ []) := by
    intro hd0 hg
    obtain ⟨x, hx⟩ := Option.isSome_iff_exists.1 ((remote_reach hr).engine hd0).1
    have := remote_result_step hx hs
    rw [hy] at this
    cases this
    obtain ⟨k, own, h1, h2, h3⟩ := ih hd0 y hx
    refine ⟨min k (runnerLogs na).length, own, ?_, h2, ?_⟩
    · rw [hg, h1, runnerLogs_snoc, List.take_append_of_le_length (Nat.min_le_right _ _)]
      congr 1
      rw [List.take_eq_take_iff]
      omega
    · rcases h3 with h3 | h3
      · left; rw [runnerResult_snoc, h3]; rfl
      · exact .inr h3
  by_cases he : a = .engPoll
  · subst he
    simp only [RemoteRun.step] at hs
    split at hs
    · cases hs
    · rename_i hd0
      have hl : runnerLogs (na ++ [.engPoll]) = runnerLogs na := by rw [runnerLogs_snoc]; simp [pushOf]
      have hres : runnerResult (na ++ [.engPoll]) = runnerResult na := by rw [runnerResult_snoc]; simp [runnerResult]
      split at hs
      · simp only [Option.some.injEq] at hs
        subst hs
        exact absurd hd (by simpa using hd0)
      · rename_i st hp
        simp only [Option.some.injEq] at hs
        subst hs
        obtain ⟨k1, k2, rfl⟩ := StreamState.poll_eos hp
        obtain ⟨k, own, g1, g2, g3⟩ := call_stream hr
        refine ⟨k, own, ?_, g2, ?_⟩
        · simp only [hl]
          rw [(remote_reach hr).readOut.eq, List.take_of_length_le k1]; exact g1
        · rw [hres]; exact g3 y hy
      · cases hs
  · by_cases hv : ∃ v, a = .setSignal v
    · obtain ⟨v, rfl⟩ := hv
      have hd0 : m.engineDone = true := by
        simp only [RemoteRun.step, Option.some.injEq] at hs; subst hs; exact hd
      exact later hd0 (by simp only [RemoteRun.step, Option.some.injEq] at hs; subst hs; rfl)
    · obtain ⟨_, _, h3, h4, _⟩ := net_step ⟨fun v e => hv ⟨v, e⟩, he⟩ hs
      exact later (by rw [← h3]; exact hd) h4

/-- All calls of a job task. -/
theorem REnded.same {acts : List RemoteEngineAct} {E : RemoteEngine} {r i : Nat} {H : List (Command × List Log)} {R : List StepRunResult}
    (h : REnded H ((E.calls r i).map callView) R)
    (hr : ∀ (n : Nat) (c : Command) (m : RemoteRun), ((E.calls r i).map callView)[n]? = some (some (c, m)) →
      ∃ na, RemoteReach na m ∧ na.filter notEngine = callMoves r i n acts) : SameRemoteSteps acts E r i H R := by
  refine ⟨by simpa using h.reported, by simpa using h.results, fun n hh o res h1 h2 h3 => ?_⟩
  cases o with
  | none =>
    obtain ⟨st, r', a1, a2, a3⟩ := h.refused n (by simp [h2, callView])
    rw [a1] at h1
    rw [a2] at h3
    cases h1
    cases h3
    exact ⟨st, rfl, a3⟩
  | some x =>
    have hv := view_get h2
    obtain ⟨st, y, r', a1, a2, a3, a4, a5, a6, a7⟩ := h.each n _ _ hv
    obtain ⟨na, hna, hfil⟩ := hr n _ _ hv
    rw [a1] at h1
    rw [a2] at h3
    cases h1
    cases h3
    obtain ⟨f1, f2, f3, f4⟩ := filter_rel na
    rw [hfil] at f1 f2 f3 f4
    obtain ⟨k, own, g1, g2, g3⟩ := done_reach hna a4 y a5
    refine ⟨st, x.net.engineGot, own, k, y, rfl, a3, a6, a7, by rw [f2]; exact g1, g2, by rw [f1]; exact g3, fun hf => ?_⟩
    obtain ⟨q1, _, q3, q4⟩ := C86_same_outcome na x.net hna (f4.1 hf) a4
    exact ⟨by rw [f1, ← q1, a5], by rw [f3]; exact q3, by rw [f2]; exact q4⟩

theorem rpair {acts : List RemoteEngineAct} {E : RemoteEngine} (h : RemoteEngineReach acts E) {r i : Nat} {t : SysTask}
    (hT : taskAt E.sys r i = some t) : RInv (fun n => callMoves r i n acts) t ((E.calls r i).map callView) := by
  have hp := (rengineInv_reach h).pairs r i
  rw [hT] at hp
  exact hp

theorem rpair_none {acts : List RemoteEngineAct} {E : RemoteEngine} (h : RemoteEngineReach acts E) {r i : Nat}
    (hT : taskAt E.sys r i = none) : E.calls r i = [] := by
  have hp := (rengineInv_reach h).pairs r i
  rw [hT] at hp
  obtain ⟨h1, _⟩ : (E.calls r i).map callView = [] ∧ _ := hp
  simpa using h1

/-- A job task that has its answer. -/
theorem rjob_done {acts : List RemoteEngineAct} {E : RemoteEngine} (h : RemoteEngineReach acts E) {r i : Nat}
    {ρ : SysRun} (hρ : E.sys.runs[r]? = some ρ) {t : SysTask} (ht : ρ.tasks[i]? = some t) {jr : JobRunResult}
    (ha : SysTask.answer t = some jr) :
    SameRemoteSteps acts E r i (handedOver (eventsOf i ρ.trace)) (executedSteps jr.steps) := by
  obtain ⟨sa, hsa, _⟩ := (rengineInv_reach h).sys
  have hT : taskAt E.sys r i = some t := by simp [taskAt, hρ, ht]
  have hp := rpair h hT
  obtain ⟨h0, h1⟩ := answer_idle ha
  have he := hp.idle h0
  rw [h1, List.append_nil] at he
  have hev : eventsOf i ρ.trace = t.evs := by rw [(runLife_reach hsa hρ).events i, ht]; rfl
  rw [hev, answer_steps hsa hT ha]
  exact he.same hp.reach

/-- Nothing that is still to be announced is a hand-over, while a step is executed. -/
theorem reading_pend {t : SysTask} (hf : TaskForm t) (hr : t.pc.reading = true) : ∀ c, Event.runnerRun c ∉ t.pc.pend := by
  intro c hc
  have h5 := hr
  unfold SysPc.reading at h5
  split at h5
  · rename_i hpc; rw [hpc] at hc; simp [SysPc.pend] at hc
  · rename_i hpc; rw [hpc] at hc; simp [SysPc.pend] at hc
  · rename_i hpc; rw [hpc] at hc; exact (hf.form _ _ hpc).2 c (by simpa [SysPc.pend] using hc)
  · cases h5

theorem rjob_busy {acts : List RemoteEngineAct} {E : RemoteEngine} (h : RemoteEngineReach acts E) {r i n : Nat}
    {ρ : SysRun} (hρ : E.sys.runs[r]? = some ρ) {st : Step} (hb : BusyRemotely E r i n st) :
    ∃ o logs, (E.calls r i)[n]? = some o ∧
      (handedOver (eventsOf i ρ.trace))[n]? = some (st.toCommand, logs) ∧
      (handedOver (eventsOf i ρ.trace)).length = n + 1 ∧
      (∀ x, o = some x → x.command = st.toCommand ∧ logs <+: x.net.outer.logs) ∧
      (o = none → logs <+: [Log.ofError "No runner available"]) := by
  obtain ⟨t, hT, hr, hst, hn⟩ := hb
  obtain ⟨sa, hsa, _⟩ := (rengineInv_reach h).sys
  have hp := rpair h hT
  obtain ⟨st', D, o, H, a1, a2, a3, a4, a5, a6⟩ := hp.link hr
  rw [hst] at a1
  cases a1
  obtain ⟨ρ', hρ', ht⟩ := taskAt_some hT
  rw [hρ] at hρ'
  cases hρ'
  have hev : eventsOf i ρ.trace = t.evs := by rw [(runLife_reach hsa hρ).events i, ht]; rfl
  obtain ⟨ls', k1, k2⟩ := handedOver_shrink (reading_pend hp.form hr) a5
  have hlen : n = D.length := by
    have : (E.calls r i).length = D.length + 1 := by
      have := congrArg List.length a2
      simpa using this
    omega
  have hH : H.length = n := by rw [a6.reported, hlen]
  have hlt : n < (E.calls r i).length := by omega
  obtain ⟨q, hq⟩ : ∃ q, (E.calls r i)[n]? = some q := ⟨_, List.getElem?_eq_getElem hlt⟩
  have ho : o = callView q := by
    have h1 : ((E.calls r i).map callView)[n]? = some (callView q) := by simp [hq]
    rw [a2, hlen] at h1
    simpa using h1
  subst ho
  refine ⟨q, ls', hq, ?_, ?_, fun x e => ?_, fun e => ?_⟩
  · rw [hev, k1, ← hH]; simp
  · rw [hev, k1]; simp [hH]
  · subst e
    obtain ⟨b1, b2, _⟩ := a3
    exact ⟨b1, by rw [show x.net.outer.logs = t.stream.logs from b2]; exact k2.trans (List.take_prefix _ _)⟩
  · subst e
    obtain ⟨b1, _⟩ := a3
    rw [← b1]; exact k2.trans (List.take_prefix _ _)

/-! ## Hypotheses about schedules -/

theorem rengine_sys {acts : List RemoteEngineAct} {E : RemoteEngine} (h : RemoteEngineReach acts E) :
    RemoteEngineHooksKeepJobs acts →
    ∃ sa, SysReach sa E.sys ∧ sa.filter (fun a => !a.byRunner) = remoteEngineMoves acts ∧ HooksKeepJobs sa := by
  refine runs_induct (P := fun acts E => RemoteEngineHooksKeepJobs acts →
    ∃ sa, SysReach sa E.sys ∧ sa.filter (fun a => !a.byRunner) = remoteEngineMoves acts ∧ HooksKeepJobs sa) ?_ ?_ h
  · intro _
    exact ⟨[], rfl, rfl, fun pre r i b s post he => by simp at he⟩
  · intro acts a E E' hr ih hs hk
    obtain ⟨sa0, k1, k2, k3⟩ := ih (fun pre r i b s post e => hk pre r i b s (post ++ [a]) (by rw [e]; simp))
    obtain ⟨⟨sa, h2, h3⟩, _⟩ := remote_move hs
    refine ⟨sa0 ++ sa, ?_, ?_, ?_⟩
    · unfold SysReach at k1 ⊢
      rw [runs_append, k1]
      exact h3
    · rw [List.filter_append, k2, rhidden_filter h2, remoteEngineMoves_snoc]
    · cases a with
      | sys b =>
        obtain ⟨hb, rfl⟩ := h2
        refine k3.snoc k1 ?_
        rintro r i b s rfl ρ t q1 q2
        exact hk acts r i b s [] rfl E hr t (by simp [taskAt, q1, q2])
      | _ => exact keepJobs_runner k3 h2 k1 h3

/-- In workflows whose jobs all have the id the steps are made to carry, the hooks keep the jobs. -/
theorem remoteHooks_of {acts : List RemoteEngineAct} (ha : Apart (remoteEngineMoves acts))
    (h : ∀ r i b s, SysAct.task r i (.nextStep b s) ∈ remoteEngineMoves acts → ∀ wf, (Spec.started (remoteEngineMoves acts))[r]? = some wf →
      ∀ k j, (k, j) ∈ wf.jobs → s.id.jobId = j.id) : RemoteEngineHooksKeepJobs acts := by
  rintro pre r i b s post rfl E hE t hT
  obtain ⟨ρ, h1, h2⟩ := taskAt_some hT
  obtain ⟨sa, hsa, hf⟩ := (rengineInv_reach hE).sys
  have hm : remoteEngineMoves (pre ++ RemoteEngineAct.sys (.task r i (.nextStep b s)) :: post) =
      remoteEngineMoves pre ++ SysAct.task r i (.nextStep b s) :: remoteEngineMoves post := by
    simp [remoteEngineMoves, List.filterMap_append, List.filterMap_cons]
  rw [hm] at ha h
  have inv := engineOk_reach (apart_filter (hf ▸ ha.prefix)) hsa
  have hwf : (Spec.started (remoteEngineMoves pre))[r]? = some ρ.wf := by
    rw [← hf, started_filter, ← inv.wfs]; simp [h1]
  refine h r i b s (by simp) ρ.wf ?_ t.key t.job ((inv.runs r ρ h1).tasks i t h2).2.1
  unfold Spec.started at hwf ⊢
  rw [List.filterMap_append, List.getElem?_append_left (List.getElem?_eq_some_iff.1 hwf).1]
  exact hwf

/-! ## Everything is waiting -/

/-- A call in which nothing moves and whose server's side is over has its result. -/
theorem stuck_call {na : List RemoteAct} {m : RemoteRun} (h : RemoteReach na m)
    (hs : ∀ a, isPipeline a = true → a ≠ .engPoll → m.step a = none) (hl : m.dropped = true → m.cli ≠ .streaming)
    (ho : runnerResult na ≠ none ∨ m.srv = .dead ∨ m.cli = .finished) : m.outer.result.isSome := by
  have hi := remote_reach h
  cases hcli : m.cli with
  | calling =>
    have hc := hi.cli
    simp only [CliOk, hcli] at hc
    have := hs .rpcOk rfl (by simp)
    simp [RemoteRun.step, hcli, hc.2.2.2] at this
  | signalling v =>
    have := hs .sigOk rfl (by simp)
    simp [RemoteRun.step, hcli] at this
  | checking =>
    have := hs .check rfl (by simp)
    simp only [RemoteRun.step, hcli, if_true] at this
    split at this <;> cases this
  | finished =>
    have hc := hi.cli
    simp only [CliOk, hcli] at hc
    rw [hc.1]; rfl
  | streaming =>
    exfalso
    have hd : m.dropped = false := by
      cases hd : m.dropped with
      | false => rfl
      | true => exact absurd hcli (hl hd)
    have hch : m.chan = [] := by
      cases hch : m.chan with
      | nil => rfl
      | cons x xs =>
        have := hs .cliNext rfl (by simp)
        simp [RemoteRun.step, hcli, hch] at this
    have hq : m.queue = [] := by
      cases hq : m.queue with
      | nil => rfl
      | cons x xs =>
        have := hs .xmit rfl (by simp)
        simp [RemoteRun.step, hq] at this
    cases hsrv : m.srv with
    | idle => have := (hi.idle hsrv).2.2; rw [hcli] at this; cases this
    | starting =>
      have := hs .srvRunOk rfl (by simp)
      simp [RemoteRun.step, hsrv] at this
    | reading =>
      rcases ho with ho | ho | ho
      · have hres : m.inner.result.isSome := by
          rw [inner_result h]; exact Option.isSome_iff_ne_none.2 ho
        have := hs .srvPoll rfl (by simp)
        simp only [RemoteRun.step, hsrv, if_true, StreamState.poll, hres] at this
        cases hx : m.inner.logs[m.inner.index]? <;> rw [hx] at this <;> simp at this
      · rw [hsrv] at ho; cases ho
      · rw [hcli] at ho; cases ho
    | sending x =>
      have := hs .srvSend rfl (by simp)
      simp [RemoteRun.step, hsrv, hd, hq, queueCapacity] at this
    | ended =>
      have := hs .srvResult rfl (by simp)
      simp only [RemoteRun.step, hsrv, if_true] at this
      split at this <;> cases this
    | dead =>
      have := hs .cliNext rfl (by simp)
      simp only [RemoteRun.step, hcli, if_true, hch] at this
      rw [if_pos ⟨hsrv, hq, hd⟩] at this
      cases this

/-- Moves in calls that the engine's model has are those of the call. -/
theorem rnet_none {E : RemoteEngine} {r i n : Nat} {x : RemoteExec} {a : RemoteAct} (hx : (E.calls r i)[n]? = some (some x))
    (hb : a.byStack = false) (h : E.step (.net r i n a) = none) : x.net.step a = none := by
  simpa [RemoteEngine.step, hx, hb] using h

theorem rstuck_runs {acts : List RemoteEngineAct} {E : RemoteEngine} (h : RemoteEngineReach acts E) {r : Nat}
    (hs : RemoteRunStuck E r)
    (hover : ∀ i n x, (E.calls r i)[n]? = some (some x) → ServerOver x (callMoves r i n acts)) :
    ∀ a, ofRun r a → E.sys.step a = none := by
  have hown : ∀ a, ofRun r a → a.byRunner = false → E.sys.step a = none := by
    intro a ha hb
    have := hs.engine a ha
    simpa [RemoteEngine.step, hb] using this
  -- no job task is executing a step
  have hidle : ∀ i t, taskAt E.sys r i = some t → stepOf t.pc = none := by
    intro i t hT
    obtain ⟨ρ, hρ, ht⟩ := taskAt_some hT
    cases hst : stepOf t.pc with
    | none => rfl
    | some st =>
      exfalso
      rcases stepOf_cases hst with hrd | ⟨t0, ref, hpc⟩
      · have hp := rpair h hT
        obtain ⟨st', D, o, H, a1, a2, a3, a4, a5, a6⟩ := hp.link hrd
        have htx : ∃ y, t.stream.result = some y := by
          cases o with
          | none => exact ⟨_, a3.2⟩
          | some z =>
            obtain ⟨c, m⟩ := z
            have hg : ((E.calls r i).map callView)[D.length]? = some (some (c, m)) := by rw [a2]; simp
            obtain ⟨na, hna, hfil⟩ := hp.reach _ c m hg
            rw [List.getElem?_map] at hg
            cases hq : (E.calls r i)[D.length]? with
            | none => rw [hq] at hg; cases hg
            | some q =>
              rw [hq] at hg
              cases q with
              | none => cases hg
              | some x =>
                simp only [Option.map_some, callView, Option.some.injEq, Prod.mk.injEq] at hg
                obtain ⟨rfl, rfl⟩ := hg
                have hov := hover i D.length x hq
                have f1 := (filter_rel na).1
                rw [hfil] at f1
                have := stuck_call hna (fun a e1 e2 => rnet_none hq (by cases a <;> first | exact absurd rfl e2 | rfl | cases e1) (hs.calls i _ a e1))
                  (fun e1 e2 => by
                    have := rnet_none hq rfl (hs.lost i _ x hq e1 "")
                    simp [RemoteRun.step, e2] at this)
                  (by unfold ServerOver at hov; rw [f1] at hov; exact hov)
                obtain ⟨y, hy⟩ := Option.isSome_iff_exists.1 this
                exact ⟨y, by rw [← a3.2.2.1]; exact hy⟩
        obtain ⟨x, htx⟩ := htx
        have hrecv := hown (.task r i .recv) rfl rfl
        have hemit := hown (.task r i .emit) rfl rfl
        have hent := hown (.task r i .enter) rfl rfl
        simp [Sys.step, hρ, ht, Sys.taskStep, SysTask.step] at hrecv hemit hent
        unfold SysPc.reading at hrd
        split at hrd
        · rename_i hpc; simp [hpc] at hent
        · rename_i hpc
          simp only [hpc] at hrecv
          cases hq : t.stream.poll 0 with
          | mk st1 o =>
            rw [hq] at hrecv
            cases o with
            | item y => simp at hrecv
            | eos => simp [htx] at hrecv
            | pending =>
              have : (t.stream.poll 0).2 = .pending := by rw [hq]
              unfold StreamState.poll at this
              simp [htx] at this
              split at this <;> simp at this
        · rename_i hpc
          obtain ⟨es, k, hpc⟩ : ∃ es k, t.pc = .emitting es k := ⟨_, _, hpc⟩
          cases es <;> simp [hpc] at hemit
        · cases hrd
      · have := (hs.client i "").1
        simp [RemoteEngine.step, jobTask_eq, hT, hpc, Sys.step, hρ, ht, Sys.taskStep, SysTask.step] at this
  intro a ha
  cases hb : a.byRunner with
  | false => exact hown a ha hb
  | true =>
    cases a with
    | task r' i b =>
      have : r' = r := ha
      subst this
      cases hst : E.sys.step (.task r' i b) with
      | none => rfl
      | some M' =>
        exfalso
        rcases sys_step_cases hst with ⟨wf, h1, _⟩ | ⟨n, b', ρ₁, ρ₂, h1, _⟩ |
          ⟨n, j, b', ρ, t, g', ρ', h1, hρ, htt, hmm, _⟩ | ⟨n, h1, _⟩ | ⟨j, x, h1, _⟩
        all_goals cases h1
        have hid := hidle i t (by simp [taskAt, hρ, htt])
        have hact : t.pc.runnerActive = true → stepOf t.pc ≠ none := by
          unfold SysPc.runnerActive
          split <;> simp_all [stepOf]
        cases b <;> simp [SysAct.byRunner] at hb
        · simp only [Sys.taskStep, SysTask.step] at hmm
          split at hmm
          · rename_i hpc; rw [hpc] at hid; cases hid
          · simp at hmm
        · simp only [Sys.taskStep, SysTask.step] at hmm
          split at hmm
          · rename_i hpc; rw [hpc] at hid; cases hid
          · simp at hmm
        · simp only [Sys.taskStep, SysTask.step] at hmm
          split at hmm
          · rename_i hpc; exact hact hpc hid
          · simp at hmm
        · simp only [Sys.taskStep, SysTask.step] at hmm
          split at hmm
          · rename_i hpc; exact hact hpc hid
          · simp at hmm
    | _ => simp [SysAct.byRunner] at hb

end AstroRun
