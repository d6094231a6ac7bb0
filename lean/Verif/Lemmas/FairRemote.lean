import Verif.Spec.FairRemote
import Verif.Lemmas.RemoteEngineMore
import Verif.Lemmas.RemoteEngineSignals
import Verif.Props.FairLocal

/-! # Lemmas: how much is left to do in a call of the remote runner -/

namespace AstroRun
open Spec

namespace FairRemoteLem

/-! ## Work -/

/-- What the server's task has left to do. -/
def srvWork : SrvPc → Nat
  | .idle => 12
  | .starting => 11
  | .reading => 10
  | .sending (.log _) => 13
  | .sending (.result _) => 8
  | .ended => 9
  | .dead => 0

/-- What the client's task has left to do. -/
def cliWork : CliPc → Nat
  | .calling => 40
  | .streaming => 2
  | .signalling _ => 3
  | .checking => 1
  | .finished => 0

/-- What is left to do in a call. -/
def callWork (m : RemoteRun) : Nat :=
  4 * (m.inner.logs.length - m.inner.index) + srvWork m.srv + 2 * m.queue.length + m.chan.length + cliWork m.cli +
    (if m.sig.isNotified then 0 else 3)

/-- The moves that get a call on, by themselves or by failing. -/
def getsOn : RemoteAct → Bool
  | .rpcOk | .rpcErr .. | .srvRunOk | .srvRunErr | .srvPoll | .srvResult | .srvSend | .srvSendErr | .xmit | .cliNext | .netErr _
  | .cliSignal | .sigOk | .sigErr | .check => true
  | _ => false

theorem next_work (x : WireItem) : srvWork (.next x) + 2 < srvWork (.sending x) := by
  cases x <;> simp [SrvPc.next, srvWork]

theorem set_notified' (s : SigState) (v : Signal) : (s.set v).state.isNotified = s.isNotified := by
  unfold SigState.set; split <;> rfl

theorem call_work {m m' : RemoteRun} {a : RemoteAct} (h : m.step a = some m') (hp : ∀ l, a ≠ .runnerPush l) :
    callWork m' ≤ callWork m ∧ (getsOn a = true → callWork m' < callWork m) := by
  cases a <;> simp only [RemoteRun.step] at h
  case runnerPush l => exact absurd rfl (hp l)
  case rpcErr e b =>
    split at h
    · rename_i hc
      simp only [Option.some.injEq] at h
      subst h
      simp only [callWork, hc, cliWork, getsOn]
      split <;> simp only [srvWork] <;> (try omega)
    · cases h
  case rpcOk =>
    split at h
    · rename_i hc
      simp only [Option.some.injEq] at h
      subst h
      simp only [callWork, hc.1, hc.2, cliWork, srvWork, getsOn]
      omega
    · cases h
  case srvPoll =>
    split at h
    · rename_i hc
      split at h
      · rename_i st l hq
        simp only [Option.some.injEq] at h
        subst h
        unfold StreamState.poll at hq
        simp only at hq
        split at hq
        · rename_i hl
          have := (List.getElem?_eq_some_iff.1 hl).1
          cases hq
          simp only [callWork, hc, srvWork, getsOn]
          omega
        · split at hq <;> cases hq
      · rename_i st hq
        simp only [Option.some.injEq] at h
        subst h
        unfold StreamState.poll at hq
        simp only at hq
        split at hq
        · cases hq
        · split at hq
          · cases hq
            simp only [callWork, hc, srvWork, getsOn]
            omega
          · cases hq
      · cases h
    · cases h
  case srvSend =>
    split at h
    · rename_i x hx
      split at h
      · simp only [Option.some.injEq] at h
        subst h
        have := next_work x
        simp only [callWork, hx, getsOn, List.length_append, List.length_singleton]
        omega
      · cases h
    · cases h
  case srvSendErr =>
    split at h
    · rename_i x hx
      split at h
      · simp only [Option.some.injEq] at h
        subst h
        have := next_work x
        simp only [callWork, hx, getsOn]
        omega
      · cases h
    · cases h
  case runnerEnd r =>
    split at h
    · cases h
    · simp only [Option.some.injEq] at h
      subst h
      simp only [callWork, getsOn, endSeq_logs_eq, StreamState.endSeq_index]
      simp
  case setSignal v =>
    simp only [Option.some.injEq] at h
    subst h
    simp only [callWork, set_notified', getsOn]
    simp
  case cliSignal =>
    split at h
    · rename_i hc
      split at h
      · rename_i sg v hq
        simp only [Option.some.injEq] at h
        subst h
        unfold SigState.poll at hq
        split at hq
        · cases hq
        · rename_i hn
          split at hq
          · cases hq
            simp only [callWork, hc, cliWork, getsOn, hn]
            simp
          · cases hq
      · cases h
    · cases h
  case engPoll =>
    split at h
    · cases h
    · split at h
      · simp only [Option.some.injEq] at h
        subst h
        simp [callWork, getsOn]
      · simp only [Option.some.injEq] at h
        subst h
        simp [callWork, getsOn]
      · cases h
  case srvCrash =>
    split at h
    · cases h
    · simp only [Option.some.injEq] at h
      subst h
      simp [callWork, getsOn, srvWork]
  case rxDrop =>
    split at h
    · cases h
    · simp only [Option.some.injEq] at h
      subst h
      simp only [callWork, getsOn, List.length_nil]
      exact ⟨by omega, by simp⟩
  case xmit =>
    split at h
    · rename_i x rest hq
      simp only [Option.some.injEq] at h
      subst h
      simp only [callWork, getsOn, hq, List.length_cons, List.length_append, List.length_nil]
      omega
    · cases h
  case cliNext =>
    split at h
    · rename_i hc
      split at h
      · rename_i x rest hq
        simp only [Option.some.injEq] at h
        subst h
        simp only [callWork, getsOn, hq, List.length_cons]
        omega
      · split at h
        · simp only [Option.some.injEq] at h
          subst h
          simp only [callWork, getsOn, hc, cliWork]
          omega
        · cases h
    · cases h
  case srvResult =>
    split at h
    · rename_i hc
      split at h
      · simp only [Option.some.injEq] at h
        subst h
        simp only [callWork, getsOn, hc, srvWork]
        omega
      · simp only [Option.some.injEq] at h
        subst h
        simp only [callWork, getsOn, hc, srvWork]
        omega
    · cases h
  case check =>
    split at h
    · rename_i hc
      split at h
      · simp only [Option.some.injEq] at h
        subst h
        simp only [callWork, getsOn, hc, cliWork]
        omega
      · simp only [Option.some.injEq] at h
        subst h
        simp only [callWork, getsOn, hc, cliWork]
        omega
    · cases h
  all_goals
    split at h
    · rename_i hc
      simp only [Option.some.injEq] at h
      subst h
      simp only [callWork, getsOn, hc, cliWork, srvWork]
      omega
    · cases h

/-- What the other moves leave alone. -/
theorem call_rest {m m' : RemoteRun} {a : RemoteAct} (h : m.step a = some m') :
    (m.dropped = true → m'.dropped = true) ∧ (getsOn a = false → m'.cli = m.cli) ∧
    (getsOn a = false → a ≠ .engPoll → m'.outer = m.outer) ∧ m'.outer.logs.length ≤ m.outer.logs.length + 1 := by
  cases a <;> simp only [RemoteRun.step] at h
  case cliNext =>
    (repeat' split at h) <;> first | (cases h; done) | (simp only [Option.some.injEq] at h; subst h)
    · rename_i x rest hq
      refine ⟨fun e => e, by simp [getsOn], by simp [getsOn], ?_⟩
      cases x with
      | log l =>
        simp only [StreamState.accept]
        split <;> simp [StreamState.error, StreamState.log, StreamState.push]
      | result r => simp only [StreamState.accept, endSeq_logs_eq]; omega
    · exact ⟨fun e => e, by simp [getsOn], by simp [getsOn], Nat.le_succ _⟩
  case engPoll =>
    split at h
    · cases h
    · split at h
      all_goals first | (cases h; done) | skip
      all_goals
        rename_i hq
        simp only [Option.some.injEq] at h
        subst h
        unfold StreamState.poll at hq
        simp only at hq
        refine ⟨fun e => e, fun _ => rfl, fun _ e => absurd rfl e, ?_⟩
        split at hq
        · cases hq <;> exact Nat.le_succ _
        · split at hq <;> cases hq <;> exact Nat.le_succ _
  all_goals
    (repeat' split at h) <;> first | (cases h; done) | (simp only [Option.some.injEq] at h; subst h)
  all_goals
    refine ⟨?_, ?_, ?_, ?_⟩
    · first | exact fun e => e | exact fun _ => rfl
    · first | exact fun _ => rfl | (intro e; cases e)
    · first | exact fun _ _ => rfl | (intro e; cases e)
    · first | exact Nat.le_succ _ | (simp only [StreamState.fail, endSeq_logs_eq, StreamState.error, StreamState.push]; simp)

/-- What one move writes to the engine. -/
theorem writes_short {m m' : RemoteRun} {a : RemoteAct} (h : m.step a = some m') : (m.outer.writes m'.outer).length ≤ 2 := by
  have := (call_rest h).2.2.2
  simp only [StreamState.writes, List.length_append, List.length_map, List.length_drop]
  split
  · cases m'.outer.result <;> simp <;> omega
  · simp; omega

theorem writes_same {o : StreamState} : o.writes o = [] := by
  simp only [StreamState.writes, List.drop_length, List.map_nil, List.nil_append]
  split
  · rename_i h; rw [h]; rfl
  · rfl

theorem writes_all (o o' : StreamState) : ∀ w ∈ o.writes o', (∃ l, w = .push l) ∨ ∃ y, w = .endStream y := by
  intro w hw
  simp only [StreamState.writes, List.mem_append, List.mem_map] at hw
  rcases hw with ⟨l, _, rfl⟩ | hw
  · exact .inl ⟨l, rfl⟩
  · split at hw
    · cases h : o'.result with
      | none => simp [h] at hw
      | some y => simp [h] at hw; exact .inr ⟨y, hw⟩
    · simp at hw

/-! ## What the engine does in a move -/

/-- A write to the stream job task `i` of run `r` reads. -/
def IsWrite (r i : Nat) (x : SysAct) : Prop := (∃ l, x = .task r i (.push l)) ∨ ∃ y, x = .task r i (.endStream y)

/-- Three moves of the engine, one after the other. -/
def Thrice (M : Sys) (x0 x1 x2 : SysAct) (s1 s2 M' : Sys) : Prop := M.step x0 = some s1 ∧ s1.step x1 = some s2 ∧ s2.step x2 = some M'

theorem thrice_none (M : Sys) : Thrice M (.tick 0) (.tick 0) (.tick 0) M M M :=
  ⟨FairLocalLem.tick_zero M, FairLocalLem.tick_zero M, FairLocalLem.tick_zero M⟩

theorem write_one {M : Sys} {r i : Nat} {t : SysTask} (hT : taskAt M r i = some t) (ha : t.pc.runnerActive = true) {w : JobAct}
    (hw : (∃ l, w = .push l) ∨ ∃ y, w = .endStream y) :
    ∃ x t', IsWrite r i x ∧ M.step x = some (M.absorb r i (some w)) ∧ taskAt (M.absorb r i (some w)) r i = some t' ∧ t'.pc = t.pc := by
  obtain ⟨ρ, hρ, ht⟩ := taskAt_some hT
  have hi := (List.getElem?_eq_some_iff.1 ht).1
  have hr := (List.getElem?_eq_some_iff.1 hρ).1
  rcases hw with ⟨l, rfl⟩ | ⟨y, rfl⟩
  · have e := push_task hρ ht ha l
    have e2 : M.absorb r i (some (.push l)) = { M with runs := M.runs.set r (ρ.setTask i { t with stream := (t.stream.push l).1 }) } := by
      simp only [Sys.absorb, e, Option.getD_some]
    exact ⟨_, { t with stream := (t.stream.push l).1 }, .inl ⟨l, rfl⟩, by rw [e2]; exact e, by rw [e2]; simp [taskAt, hr, SysRun.setTask, hi], rfl⟩
  · have e := end_task hρ ht ha y
    have e2 : M.absorb r i (some (.endStream y)) = { M with runs := M.runs.set r (ρ.setTask i { t with stream := (t.stream.endSeq y).1 }) } := by
      simp only [Sys.absorb, e, Option.getD_some]
    exact ⟨_, { t with stream := (t.stream.endSeq y).1 }, .inr ⟨y, rfl⟩, by rw [e2]; exact e, by rw [e2]; simp [taskAt, hr, SysRun.setTask, hi], rfl⟩

/-- Up to two writes. -/
theorem write_few {M : Sys} {r i : Nat} {t : SysTask} (hT : taskAt M r i = some t) (ha : t.pc.runnerActive = true) {ws : List JobAct}
    (hw : ∀ w ∈ ws, (∃ l, w = .push l) ∨ ∃ y, w = .endStream y) (hl : ws.length ≤ 2) :
    ∃ x0 x1 x2 s1 s2, Thrice M x0 x1 x2 s1 s2 (M.absorbAll r i ws) ∧
      ∀ x, x = x0 ∨ x = x1 ∨ x = x2 → x = .tick 0 ∨ IsWrite r i x ∧ ws ≠ [] := by
  rcases ws with _ | ⟨w, _ | ⟨w', _ | ⟨w'', ws⟩⟩⟩
  · refine ⟨.tick 0, .tick 0, .tick 0, M, M, thrice_none M, ?_⟩
    rintro x (rfl | rfl | rfl) <;> exact .inl rfl
  · obtain ⟨x, t', h1, h2, _⟩ := write_one hT ha (hw w (by simp))
    refine ⟨x, .tick 0, .tick 0, _, _, ⟨h2, FairLocalLem.tick_zero _, FairLocalLem.tick_zero _⟩, ?_⟩
    rintro y (rfl | rfl | rfl)
    · exact .inr ⟨h1, by simp⟩
    · exact .inl rfl
    · exact .inl rfl
  · obtain ⟨x, t', h1, h2, h3, h4⟩ := write_one hT ha (hw w (by simp))
    obtain ⟨x', t'', k1, k2, _⟩ := write_one h3 (by rw [h4]; exact ha) (hw w' (by simp))
    refine ⟨x, x', .tick 0, _, _, ⟨h2, k2, FairLocalLem.tick_zero _⟩, ?_⟩
    rintro y (rfl | rfl | rfl)
    · exact .inr ⟨h1, by simp⟩
    · exact .inr ⟨k1, by simp⟩
    · exact .inl rfl
  · simp at hl

/-- What the engine itself does in a move. -/
def Shadow3 (E : RemoteEngine) (a : RemoteEngineAct) (x0 x1 x2 : SysAct) : Prop :=
  match a with
  | .sys b => x0 = b ∧ b.byRunner = false ∧ x1 = .tick 0 ∧ x2 = .tick 0
  | .dispatched r i _ => x0 = .task r i .accept ∧ x1 = .tick 0 ∧ x2 = .tick 0
  | .noRunner r i => IsWrite r i x0 ∧ IsWrite r i x1 ∧ x2 = .task r i .accept ∧
      ∃ t st t0 ref, taskAt E.sys r i = some t ∧ t.pc = .calling st t0 ref
  | .net r i n b => ∀ x, x = x0 ∨ x = x1 ∨ x = x2 →
      x = .tick 0 ∨ IsWrite r i x ∧ getsOn b = true ∧ n + 1 = (E.calls r i).length ∧ ∀ z, callAt E r i n = some z → z.net.cli ≠ .finished
  | .signalFailed r i n _ => ∀ x, x = x0 ∨ x = x1 ∨ x = x2 → x = .tick 0 ∨ IsWrite r i x ∧ n + 1 = (E.calls r i).length ∧
      ∀ z, callAt E r i n = some z → z.net.cli ≠ .finished
  | .stepCompleted .. => x0 = .tick 0 ∧ x1 = .tick 0 ∧ x2 = .tick 0

/-- A client's task that is over writes nothing. -/
theorem finished_outer {m m' : RemoteRun} {b : RemoteAct} (h : m.step b = some m') (hf : m.cli = .finished) (hb : b ≠ .engPoll) :
    m'.outer = m.outer := by
  cases b <;> simp only [RemoteRun.step, hf] at h <;> (repeat' split at h) <;> first
    | contradiction
    | (cases h; rfl)

/-- A move in a call. -/
theorem moved_shadow {E : RemoteEngine} {r i n : Nat} {x : RemoteExec} {m : RemoteRun} {b : RemoteAct} (hs : x.net.step b = some m)
    (hb : b ≠ .engPoll) (hx : callAt E r i n = some x) :
    ∃ x0 x1 x2 s1 s2, Thrice E.sys x0 x1 x2 s1 s2 (E.moved r i n x m).sys ∧
      ∀ y, y = x0 ∨ y = x1 ∨ y = x2 → y = .tick 0 ∨ IsWrite r i y ∧ getsOn b = true ∧ n + 1 = (E.calls r i).length ∧
        ∀ z, callAt E r i n = some z → z.net.cli ≠ .finished := by
  have hno : (E.moved r i n x m).sys = E.sys → ∃ x0 x1 x2 s1 s2, Thrice E.sys x0 x1 x2 s1 s2 (E.moved r i n x m).sys ∧
      ∀ y, y = x0 ∨ y = x1 ∨ y = x2 → y = .tick 0 ∨ IsWrite r i y ∧ getsOn b = true ∧ n + 1 = (E.calls r i).length ∧
        ∀ z, callAt E r i n = some z → z.net.cli ≠ .finished := by
    intro e
    rw [e]
    exact ⟨_, _, _, _, _, thrice_none _, by rintro y (rfl | rfl | rfl) <;> exact .inl rfl⟩
  cases hT : taskAt E.sys r i with
  | none => exact hno (by simp [RemoteEngine.moved, jobTask_eq, hT])
  | some t =>
    by_cases hc : t.pc.reading = true ∧ n + 1 = (E.calls r i).length
    · obtain ⟨hr, hn⟩ := hc
      have hc' : (t.pc.reading && n + 1 == (E.calls r i).length) = true := by simp [hr, hn]
      have hsys : (E.moved r i n x m).sys = E.sys.absorbAll r i (x.net.outer.writes m.outer) := by
        simp only [RemoteEngine.moved, jobTask_eq, hT, Option.map_some, hc', if_true]
      obtain ⟨x0, x1, x2, s1, s2, h1, h2⟩ := write_few hT (reading_active hr) (writes_all _ _) (writes_short hs)
      refine ⟨x0, x1, x2, s1, s2, by rw [hsys]; exact h1, fun y hy => ?_⟩
      rcases h2 y hy with h | ⟨h, hne⟩
      · exact .inl h
      · refine .inr ⟨h, ?_, hn, fun z hz hf => ?_⟩
        rotate_left
        · rw [hx] at hz
          cases hz
          exact hne (by rw [finished_outer hs hf hb]; exact writes_same)
        rcases Bool.eq_false_or_eq_true (getsOn b) with hg | hg
        · exact hg
        · exact absurd (by rw [(call_rest hs).2.2.1 hg hb]; exact writes_same) hne
    · have hc' : (t.pc.reading && n + 1 == (E.calls r i).length) = false := by
        cases hr : t.pc.reading
        · rfl
        · simp [hr] at hc; simp [hc]
      exact hno (by simp [RemoteEngine.moved, jobTask_eq, hT, hc'])

theorem remote_shadow {E E' : RemoteEngine} {a : RemoteEngineAct} (h : E.step a = some E') :
    ∃ x0 x1 x2 s1 s2, Thrice E.sys x0 x1 x2 s1 s2 E'.sys ∧ Shadow3 E a x0 x1 x2 := by
  cases a with
  | sys a =>
    simp only [RemoteEngine.step] at h
    split at h
    · simp at h
    · rename_i hb
      simp only [Option.map_eq_some_iff] at h
      obtain ⟨M, hM, rfl⟩ := h
      exact ⟨a, .tick 0, .tick 0, _, _, ⟨hM, FairLocalLem.tick_zero _, FairLocalLem.tick_zero _⟩, rfl, by simpa using hb, rfl, rfl⟩
  | dispatched r i sv =>
    simp only [RemoteEngine.step] at h
    split at h
    · simp only [Option.map_eq_some_iff] at h
      obtain ⟨M, hM, rfl⟩ := h
      exact ⟨_, .tick 0, .tick 0, _, _, ⟨hM, FairLocalLem.tick_zero _, FairLocalLem.tick_zero _⟩, rfl, rfl, rfl⟩
    · simp at h
  | noRunner r i =>
    simp only [RemoteEngine.step] at h
    split at h
    · rename_i st t0 ref hpc
      simp only [Option.map_eq_some_iff] at h
      obtain ⟨M, hM, rfl⟩ := h
      simp only [Option.map_eq_some_iff] at hpc
      obtain ⟨t, ht, hpc⟩ := hpc
      have ha : t.pc.runnerActive = true := by rw [hpc]; rfl
      obtain ⟨x0, t1, h1, h2, h3, h4⟩ := write_one (w := .push (Log.ofError "No runner available")) ht ha (.inl ⟨_, rfl⟩)
      obtain ⟨x1, t2, k1, k2, k3, k4⟩ := write_one (w := .endStream (.failed 1)) h3 (by rw [h4]; exact ha) (.inr ⟨_, rfl⟩)
      exact ⟨x0, x1, .task r i .accept, _, _, ⟨h2, k2, hM⟩, h1, k1, rfl, t, st, t0, ref, ht, hpc⟩
    · simp at h
  | net r i n b =>
    obtain ⟨x, m, hget, hb, hm, hcase⟩ := renet_step h
    have hb' : b ≠ .engPoll := by rintro rfl; cases hb
    obtain ⟨x0, x1, x2, s1, s2, h1, h2⟩ := moved_shadow (E := E) (r := r) (i := i) (n := n) hm hb' (callAt_iff.2 hget)
    have : E'.sys = (E.moved r i n x m).sys := by
      rcases hcase with ⟨_, rfl⟩ | ⟨v, _, _, rfl⟩ | ⟨_, _, _, rfl⟩
      · rfl
      · exact (arrives_view (E.moved r i n x m) x.server x.command.id v).1
      · rfl
    exact ⟨x0, x1, x2, s1, s2, by rw [this]; exact h1, h2⟩
  | signalFailed r i n b =>
    obtain ⟨x, m, v, hget, hm, _, hcase⟩ := refail_step h
    obtain ⟨x0, x1, x2, s1, s2, h1, h2⟩ := moved_shadow (E := E) (r := r) (i := i) (n := n) hm (by simp) (callAt_iff.2 hget)
    have : E'.sys = (E.moved r i n x m).sys := by
      rw [hcase]
      split
      · exact (arrives_view (E.moved r i n x m) x.server x.command.id v).1
      · rfl
    exact ⟨x0, x1, x2, s1, s2, by rw [this]; exact h1, fun y hy => (h2 y hy).imp_right fun h => ⟨h.1, h.2.2⟩⟩
  | stepCompleted r sv res =>
    simp only [RemoteEngine.step] at h
    (repeat' split at h) <;> cases h
    exact ⟨_, _, _, _, _, thrice_none _, rfl, rfl, rfl⟩

/-! ## A call, from move to move -/

theorem taskMoved_work {n : RemoteRun} (b : TaskAct) (sg : SigState) :
    callWork (n.taskMoved b sg) = callWork n ∧ (n.taskMoved b sg).cli = n.cli ∧ (n.taskMoved b sg).dropped = n.dropped := by
  have h1 : ∀ n1, n1 = (if b = .recv then (n.step .engPoll).getD n else n) → callWork n1 = callWork n ∧ n1.cli = n.cli ∧ n1.dropped = n.dropped := by
    rintro n1 rfl
    split
    · simp only [RemoteRun.step]
      (repeat' split) <;> exact ⟨rfl, rfl, rfl⟩
    · exact ⟨rfl, rfl, rfl⟩
  obtain ⟨a1, a2, a3⟩ := h1 _ rfl
  simp only [RemoteRun.taskMoved]
  split
  · refine ⟨?_, a2, a3⟩
    rw [← a1]
    simp only [callWork, set_notified']
  · exact ⟨a1, a2, a3⟩

theorem callAt_view {E : RemoteEngine} {r i n : Nat} {x : RemoteExec} (h : callAt E r i n = some x) :
    ((E.calls r i).map callView)[n]? = some (some (x.command, x.net)) := view_get (callAt_iff.1 h)

theorem view_callAt {E : RemoteEngine} {r i n : Nat} {y : Command × RemoteRun} (h : ((E.calls r i).map callView)[n]? = some (some y)) :
    ∃ x, callAt E r i n = some x ∧ x.command = y.1 ∧ x.net = y.2 := by
  rw [List.getElem?_map] at h
  cases hq : (E.calls r i)[n]? with
  | none => rw [hq] at h; cases h
  | some q =>
    rw [hq] at h
    cases q with
    | none => cases h
    | some x =>
      simp only [Option.map_some, callView, Option.some.injEq] at h
      exact ⟨x, callAt_iff.2 hq, by rw [← h], by rw [← h]⟩

/-- What a move leaves of the work in a call. -/
theorem call_move {E E' : RemoteEngine} {a : RemoteEngineAct} (hs : E.step a = some E') {r i n : Nat} {x : RemoteExec}
    (hx : callAt E r i n = some x) (hp : ∀ l, a ≠ .net r i n (.runnerPush l)) :
    ∃ x', callAt E' r i n = some x' ∧ callWork x'.net ≤ callWork x.net ∧
      (∀ b ∈ callMoves r i n [a], getsOn b = true → callWork x'.net < callWork x.net) ∧
      (x.net.dropped = true → x'.net.dropped = true) ∧ ((∀ b ∈ callMoves r i n [a], getsOn b = false) → x'.net.cli = x.net.cli) := by
  obtain ⟨lab, h1, h2⟩ := (remote_move hs).2 r i
  have hv := callAt_view hx
  rw [h1]
  have hp' : ∀ l, lab ≠ some (n, .runnerPush l) := by
    rintro l rfl
    have h := h1 n
    simp only [labMoves, if_true] at h
    cases a with
    | net r' i' n' b =>
      simp only [callMoves, List.filterMap_cons, List.filterMap_nil] at h
      split at h
      · cases h
      · rename_i hq
        split at hq
        · rename_i he
          obtain ⟨rfl, rfl, rfl⟩ := he
          cases hq
          cases h
          exact hp l rfl
        · cases hq
    | signalFailed r' i' n' b =>
      simp only [callMoves, List.filterMap_cons, List.filterMap_nil] at h
      split at h
      · cases h
      · rename_i hq
        split at hq <;> cases hq
        cases h
    | _ => simp [callMoves] at h
  clear hp h1 hs
  have fin : ∀ (vs : List RCall), (E'.calls r i).map callView = vs → vs[n]? = some (some (x.command, x.net)) →
      (∀ b ∈ labMoves n lab, False) →
      ∃ x', callAt E' r i n = some x' ∧ callWork x'.net ≤ callWork x.net ∧
      (∀ b ∈ labMoves n lab, getsOn b = true → callWork x'.net < callWork x.net) ∧
      (x.net.dropped = true → x'.net.dropped = true) ∧ ((∀ b ∈ labMoves n lab, getsOn b = false) → x'.net.cli = x.net.cli) := by
    intro vs e1 e2 e3
    obtain ⟨x', k1, k2, k3⟩ := view_callAt (E := E') (r := r) (i := i) (n := n) (by rw [e1]; exact e2)
    exact ⟨x', k1, by rw [k3], fun b hb => (e3 b hb).elim, by rw [k3]; exact id, fun _ => by rw [k3]⟩
  generalize hvs : (E.calls r i).map callView = vs at h2 hv
  generalize hvs' : (E'.calls r i).map callView = vs' at h2
  generalize taskAt E.sys r i = ot at h2
  generalize taskAt E'.sys r i = ot' at h2
  have own : ∀ (k : Nat) (b : RemoteAct) (c : Command) (m m' : RemoteRun), lab = some (k, b) → vs[k]? = some (some (c, m)) →
      m.step b = some m' → vs' = vs.set k (some (c, m')) → ∃ x', callAt E' r i n = some x' ∧ callWork x'.net ≤ callWork x.net ∧
      (∀ b ∈ labMoves n lab, getsOn b = true → callWork x'.net < callWork x.net) ∧
      (x.net.dropped = true → x'.net.dropped = true) ∧ ((∀ b ∈ labMoves n lab, getsOn b = false) → x'.net.cli = x.net.cli) := by
    intro k b c m m' hl hget hst hset
    subst hl
    by_cases hk : k = n
    · subst hk
      rw [hv] at hget
      simp only [Option.some.injEq, Prod.mk.injEq] at hget
      obtain ⟨rfl, rfl⟩ := hget
      obtain ⟨x', k1, k2, k3⟩ := view_callAt (E := E') (r := r) (i := i) (n := k) (y := (x.command, m')) (by
        rw [hvs', hset]; simp [(List.getElem?_eq_some_iff.1 hv).1])
      simp only at k3
      obtain ⟨w1, w2⟩ := call_work hst (fun l e => hp' l (by rw [e]))
      obtain ⟨w3, w4, _⟩ := call_rest hst
      refine ⟨x', k1, by rw [k3]; exact w1, ?_, by rw [k3]; exact w3, ?_⟩
      · intro b' hb' hg
        simp only [labMoves, if_true, List.mem_singleton] at hb'
        subst hb'
        rw [k3]; exact w2 hg
      · intro hg
        rw [k3]; exact w4 (hg b (by simp [labMoves]))
    · refine fin _ hvs' ?_ (by simp [labMoves, hk])
      rw [hset, List.getElem?_set_ne hk]; exact hv
  cases h2 with
  | same => exact fin _ hvs' hv (by simp [labMoves])
  | born => exact fin _ hvs' hv (by simp [labMoves])
  | eng g g' ρ ρ' now i0 r0 b t t' _ hb ht hst ht' =>
    split at hvs'
    · have e : ((E'.calls r i).map callView)[n]? = some (some (if vs.length - 1 = n then (x.command, x.net.taskMoved b t'.sig) else (x.command, x.net))) := by
        rw [hvs', List.getElem?_modify, hv]
        split <;> rfl
      obtain ⟨x', k1, k2, k3⟩ := view_callAt e
      obtain ⟨w1, w2, w3⟩ := taskMoved_work (n := x.net) b t'.sig
      refine ⟨x', k1, ?_, by simp [labMoves], ?_, fun _ => ?_⟩ <;> rw [k3] <;> split <;> simp [w1, w2, w3]
    · exact fin _ hvs' hv (by simp [labMoves])
  | dispatched t _ st t0 ref hpc =>
    exact fin _ hvs' (by rw [List.getElem?_append_left (List.getElem?_eq_some_iff.1 hv).1]; exact hv) (by simp [labMoves])
  | refused t _ st t0 ref hpc =>
    exact fin _ hvs' (by rw [List.getElem?_append_left (List.getElem?_eq_some_iff.1 hv).1]; exact hv) (by simp [labMoves])
  | other o _ k b c m m' hget ha hst ho => exact own k b c m m' rfl hget hst rfl
  | wrote t _ k b c m m' hget ha hst hr hn => exact own k b c m m' rfl hget hst rfl

/-- One move, seen by a job task that is executing a step and its calls. -/
theorem rmove_reading {lab : Option (Nat × RemoteAct)} {t t' : SysTask} {vs vs' : List RCall} (h : RMove lab (some t) vs (some t') vs')
    (hr : t.pc.reading = true) (ha : t'.pc.runnerActive = true) : t'.pc.reading = true ∧ vs'.length = vs.length := by
  generalize ho : some t = o at h
  generalize ho' : some t' = o' at h
  cases h with
  | same => cases ho; cases ho'; exact ⟨hr, rfl⟩
  | born => cases ho
  | eng g g' ρ ρ' now i r b u u' _ hb hu hs hu' =>
    cases ho; cases ho'
    refine ⟨FairLocalLem.reading_stays hu hs hu' hr ha, ?_⟩
    split <;> simp
  | dispatched u _ st t0 ref hpc => cases ho; rw [hpc] at hr; cases hr
  | refused u _ st t0 ref hpc => cases ho; rw [hpc] at hr; cases hr
  | other => cases ho; cases ho'; exact ⟨hr, by simp⟩
  | wrote => cases ho; cases ho'; exact ⟨hr, by simp⟩

theorem rmove_some {lab : Option (Nat × RemoteAct)} {t : SysTask} {o' : Option SysTask} {vs vs' : List RCall} (h : RMove lab (some t) vs o' vs') :
    ∃ t', o' = some t' := by
  generalize ho : some t = o at h
  cases h with
  | same => exact ⟨t, ho.symm⟩
  | born => cases ho
  | other => exact ⟨t, ho.symm⟩
  | _ => exact ⟨_, rfl⟩

/-! ## What is possible -/

theorem rsys_possible {E : RemoteEngine} {x : SysAct} (hb : x.byRunner = false) (h : E.sys.step x ≠ none) : E.step (.sys x) ≠ none := by
  simpa [RemoteEngine.step, hb] using h

theorem dispatched_possible {E : RemoteEngine} {r i : Nat} {t : SysTask} (ht : taskAt E.sys r i = some t) {s : Step} {t0 : Time} {ref : Nat}
    (hpc : t.pc = .calling s t0 ref) : E.step (.dispatched r i "") ≠ none := by
  obtain ⟨ρ, h1, h2⟩ := taskAt_some ht
  simp [RemoteEngine.step, jobTask_eq, ht, hpc, Sys.step, h1, h2, Sys.taskStep, SysTask.step]

theorem rjob_possible {E : RemoteEngine} {r i : Nat} {x : SysAct} (hx : workOf r i x) (h : E.sys.step x ≠ none) :
    ∃ y, remoteJobOf r i y ∧ E.step y ≠ none := by
  rcases Bool.eq_false_or_eq_true x.byRunner with hb | hb
  · obtain ⟨b, rfl, _⟩ := FairLem.workOf_iff.1 hx
    obtain ⟨M, hM⟩ := Option.ne_none_iff_exists'.1 h
    rcases sys_step_cases hM with ⟨wf, h1, _⟩ | ⟨n, b', ρ₁, ρ₂, h1, _⟩ |
          ⟨n, j, b', ρ, t, g', ρ', h1, hρ, htt, hmm, _⟩ | ⟨n, h1, _⟩ | ⟨j, x, h1, _⟩
    all_goals cases h1
    have hT : taskAt E.sys r i = some t := by simp [taskAt, hρ, htt]
    have hc : ∃ s t0 ref, t.pc = .calling s t0 ref := by
      cases b <;> simp [SysAct.byRunner] at hb <;> simp only [workOf, SysAct.task.injEq, true_and, exists_eq_left'] at hx
      all_goals
        simp only [Sys.taskStep, SysTask.step] at hmm
        split at hmm
        · exact ⟨_, _, _, by assumption⟩
        · simp at hmm
    obtain ⟨s, t0, ref, hpc⟩ := hc
    exact ⟨_, .inr (.inl ⟨_, rfl⟩), dispatched_possible hT hpc⟩
  · exact ⟨.sys x, .inl ⟨x, rfl, hx⟩, rsys_possible hb h⟩

theorem net_possible {E : RemoteEngine} {r i n : Nat} {b : RemoteAct} {x : RemoteExec} (hx : callAt E r i n = some x)
    (hb : b.byStack = false) (h : x.net.step b ≠ none) : E.step (.net r i n b) ≠ none :=
  fun e => h (rnet_none (callAt_iff.1 hx) hb e)

/-- A stream that can be read can still be read after more was written. -/
theorem recv_stays {M M' : Sys} {r i : Nat} {y : SysAct} (hs : M.step y = some M')
    (hy : y = .tick 0 ∨ ∃ r' i', IsWrite r' i' y ∨ y = .task r' i' .accept) (h : M.step (.task r i .recv) ≠ none) :
    M'.step (.task r i .recv) ≠ none := by
  rcases hy with rfl | ⟨r', i', hy⟩
  · rw [FairLocalLem.tick_zero] at hs
    cases hs; exact h
  obtain ⟨b, rfl, hb⟩ : ∃ b, y = .task r' i' b ∧ ((∃ l, b = .push l) ∨ (∃ z, b = .endStream z) ∨ b = .accept) := by
    rcases hy with (⟨l, rfl⟩ | ⟨z, rfl⟩) | rfl
    · exact ⟨_, rfl, .inl ⟨l, rfl⟩⟩
    · exact ⟨_, rfl, .inr (.inl ⟨z, rfl⟩)⟩
    · exact ⟨_, rfl, .inr (.inr rfl)⟩
  clear hy
  rcases sys_step_cases hs with ⟨wf, h1, _⟩ | ⟨n, b', ρ₁, ρ₂, h1, _⟩ |
          ⟨n, j, b', ρ, t, g', ρ', h1, hρ, htt, hmm, e⟩ | ⟨n, h1, _⟩ | ⟨j, x, h1, _⟩
  all_goals cases h1
  obtain ⟨t', e1, _⟩ := taskStep_frame hmm
  have hi := (List.getElem?_eq_some_iff.1 htt).1
  have hr := (List.getElem?_eq_some_iff.1 hρ).1
  have key : ∀ (N : Sys) (u : SysTask), taskAt N r i = some u → (N.step (.task r i .recv) ≠ none ↔
      ∃ s t0 d ref, u.pc = .select s t0 d ref ∧ (u.stream.poll 0).2 ≠ .pending) := by
    intro N u hu
    obtain ⟨ρu, hρu, htu⟩ := taskAt_some hu
    constructor
    · intro hne
      cases hpc : u.pc <;> simp [Sys.step, hρu, htu, Sys.taskStep, SysTask.step, hpc] at hne ⊢
      intro hq
      cases hp : u.stream.poll 0 with
      | mk a o =>
        rw [hp] at hq hne
        simp only at hq
        subst hq
        simp at hne
    · rintro ⟨s, t0, d, ref, hpc, hq⟩
      simp [Sys.step, hρu, htu, Sys.taskStep, SysTask.step, hpc]
      unfold StreamState.poll at hq ⊢
      simp only at hq ⊢
      cases hl : u.stream.logs[u.stream.index]? with
      | some l => simp
      | none =>
        rw [hl] at hq
        simp only at hq ⊢
        cases hres : u.stream.result with
        | none => rw [hres] at hq; simp at hq
        | some z => simp
  by_cases he : r = r' ∧ i = i'
  · obtain ⟨rfl, rfl⟩ := he
    have hT : taskAt M r i = some t := by simp [taskAt, hρ, htt]
    have hT' : taskAt M' r i = some t' := by
      rw [e]
      simp only [taskAt, List.getElem?_set_self hr, Option.bind_some]
      rw [e1]
      simp [hi]
    obtain ⟨s, t0, d, ref, hpc, hq⟩ := (key M t hT).1 h
    refine (key M' t' hT').2 ?_
    have hact : t.pc.runnerActive = true := by rw [hpc]; rfl
    have hE : ∀ u g, Sys.taskStep M.mgr ρ M.now i t b = some (g, ρ.setTask i u) → t' = u := by
      intro u g hu
      rw [hmm] at hu
      simp only [Option.some.injEq, Prod.mk.injEq] at hu
      have := congrArg (fun q => q.tasks[i]?) hu.2
      simp only [e1, SysRun.setTask] at this
      simpa [hi] using this
    rcases hb with ⟨l, rfl⟩ | ⟨z, rfl⟩ | rfl
    · have := hE _ _ (by simp only [Sys.taskStep, SysTask.step, hact, if_true]; rfl)
      subst this
      refine ⟨s, t0, d, ref, hpc, ?_⟩
      unfold StreamState.poll at hq ⊢
      simp only [StreamState.push] at hq ⊢
      cases hl : t.stream.logs[t.stream.index]? with
      | some x => rw [List.getElem?_append_left (List.getElem?_eq_some_iff.1 hl).1, hl]; simp
      | none =>
        rw [hl] at hq
        simp only at hq
        split
        · simp
        · split at hq
          · rename_i h1; simp [h1]
          · simp at hq
    · have := hE _ _ (by simp only [Sys.taskStep, SysTask.step, hact, if_true]; rfl)
      subst this
      refine ⟨s, t0, d, ref, hpc, ?_⟩
      have hsome : (t.stream.endSeq z).1.result.isSome = true := by
        unfold StreamState.endSeq
        split
        · assumption
        · rfl
      unfold StreamState.poll
      simp only [hsome, if_true]
      split <;> simp
    · simp [Sys.taskStep, SysTask.step, hpc] at hmm
  · have hcong : taskAt M' r i = taskAt M r i := by rw [e]; exact taskAt_set_ne hρ e1 he
    cases hu : taskAt M r i with
    | none =>
      exfalso
      apply h
      cases hq : M.runs[r]? with
      | none => simp [Sys.step, hq]
      | some q =>
        cases hz : q.tasks[i]? with
        | none => simp [Sys.step, hq, hz]
        | some z => simp [taskAt, hq, hz] at hu
    | some u => exact (key M' u (by rw [hcong]; exact hu)).2 ((key M u hu).1 h)

end FairRemoteLem
end AstroRun
