import Verif.Spec.RemoteStack
import Verif.Lemmas.LocalStack
import Verif.Lemmas.Remote
import Verif.Lemmas.Map

/-! # Lemmas: a job on the remote runner -/

namespace AstroRun
open Spec

/-! ## What one move does to the stream of a call -/

/-- The stream was only appended to, and its result not changed. -/
structure Grew (o o' : StreamState) : Prop where
  logs : o.logs <+: o'.logs
  result : ∀ r, o.result = some r → o'.result = some r

theorem Grew.refl (o : StreamState) : Grew o o := ⟨List.prefix_refl _, fun _ h => h⟩

theorem grew_fail (o : StreamState) (m : String) : Grew o (o.fail m) :=
  ⟨by rw [StreamState.fail_logs]; exact List.prefix_append _ _, fun r h => by rw [StreamState.fail_result, h]; rfl⟩

theorem grew_accept (o : StreamState) (x : WireItem) : Grew o (o.accept x) :=
  ⟨by rw [StreamState.accept_logs]; exact List.prefix_append _ _, fun r h => by rw [StreamState.accept_result, h]; rfl⟩

/-- A move that is not the engine's: the stream grows, the position of its reader, what it has read and the signal stay. -/
theorem net_step {n n' : RemoteRun} {a : RemoteAct} (hb : (∀ v, a ≠ .setSignal v) ∧ a ≠ .engPoll) (hs : n.step a = some n') :
    Grew n.outer n'.outer ∧ n'.outer.index = n.outer.index ∧ n'.engineDone = n.engineDone ∧ n'.engineGot = n.engineGot ∧
    n'.sig.signal = n.sig.signal := by
  cases a with
  | setSignal v => exact absurd rfl (hb.1 v)
  | engPoll => exact absurd rfl hb.2
  | rpcErr e b =>
    simp only [RemoteRun.step] at hs
    split at hs <;> cases hs
    exact ⟨grew_fail _ _, StreamState.fail_index _ _, rfl, rfl, rfl⟩
  | netErr e =>
    simp only [RemoteRun.step] at hs
    split at hs <;> cases hs
    exact ⟨grew_fail _ _, StreamState.fail_index _ _, rfl, rfl, rfl⟩
  | cliNext =>
    simp only [RemoteRun.step] at hs
    (repeat' split at hs) <;> cases hs
    · exact ⟨grew_accept _ _, StreamState.accept_index _ _, rfl, rfl, rfl⟩
    · exact ⟨Grew.refl _, rfl, rfl, rfl, rfl⟩
  | check =>
    simp only [RemoteRun.step] at hs
    (repeat' split at hs) <;> cases hs
    · exact ⟨Grew.refl _, rfl, rfl, rfl, rfl⟩
    · exact ⟨grew_fail _ _, StreamState.fail_index _ _, rfl, rfl, rfl⟩
  | cliSignal =>
    simp only [RemoteRun.step] at hs
    (repeat' split at hs) <;> cases hs
    rename_i hp
    obtain ⟨h1, h2, h3⟩ := poll_some hp
    exact ⟨Grew.refl _, rfl, rfl, rfl, by rw [h3]⟩
  | _ =>
    simp only [RemoteRun.step] at hs
    (repeat' split at hs) <;> cases hs <;> exact ⟨Grew.refl _, rfl, rfl, rfl, rfl⟩

/-- The engine's view after a move of the call it reads from: only the stream changes, as the call's does. -/
theorem absorbAll_push {m : JobM} (hm : m.pc.reading = true) (ls : List Log) :
    ∃ st, m.absorbAll (ls.map .push) = { m with stream := st } ∧ st.logs = m.stream.logs ++ ls ∧
      st.result = m.stream.result ∧ st.index = m.stream.index := by
  induction ls generalizing m with
  | nil => exact ⟨m.stream, rfl, by simp, rfl, rfl⟩
  | cons l ls ih =>
    obtain ⟨st, h1, h2, h3, h4⟩ := ih (m := { m with stream := (m.stream.push l).1 }) hm
    refine ⟨st, ?_, by rw [h2, StreamState.push_logs]; simp, by rw [h3]; rfl, by rw [h4]; rfl⟩
    have : m.absorbAll ((l :: ls).map .push) = ((m.step (.push l)).getD m).absorbAll (ls.map .push) := rfl
    rw [this, push_reading hm]
    exact h1

theorem absorbAll_append (m : JobM) (a b : List JobAct) : m.absorbAll (a ++ b) = (m.absorbAll a).absorbAll b := by
  simp [JobM.absorbAll]

theorem absorbAll_spec {m : JobM} (hm : m.pc.reading = true) {o o' : StreamState} (hg : Grew o o')
    (hl : o.logs = m.stream.logs) (hr : o.result = m.stream.result) :
    ∃ st, m.absorbAll (o.writes o') = { m with stream := st } ∧ st.logs = o'.logs ∧ st.result = o'.result ∧
      st.index = m.stream.index := by
  obtain ⟨t, ht⟩ := hg.logs
  obtain ⟨st, h1, h2, h3, h4⟩ := absorbAll_push hm (o'.logs.drop o.logs.length)
  have hlogs : st.logs = o'.logs := by rw [h2, ← hl, ← ht]; simp
  simp only [StreamState.writes, absorbAll_append, h1]
  cases hres : o.result with
  | some r =>
    refine ⟨st, by simp [JobM.absorbAll], hlogs, ?_, h4⟩
    rw [h3, ← hr, hres, hg.result r hres]
  | none =>
    cases hres' : o'.result with
    | none => exact ⟨st, by simp [JobM.absorbAll], hlogs, by rw [h3, ← hr, hres], h4⟩
    | some r =>
      refine ⟨(st.endSeq r).1, ?_, by rw [endSeq_logs_eq, hlogs], ?_, by rw [StreamState.endSeq_index, h4]⟩
      · have : ({ m with stream := st } : JobM).pc.reading = true := hm
        simp [JobM.absorbAll, end_reading this]
      · rw [endSeq_result_none (by rw [h3, ← hr, hres])]

/-- Runner moves only: the engine's schedule is a schedule of a job. -/
theorem absorbAll_reach {job : Job} {t : Time} {m : JobM} (h : ∃ ja, JobReach job t ja m) (ws : List JobAct) :
    ∃ ja, JobReach job t ja (m.absorbAll ws) := by
  induction ws generalizing m with
  | nil => exact h
  | cons w ws ih =>
    obtain ⟨ja, hja⟩ := h
    cases hs : m.step w with
    | none =>
      have : m.absorbAll (w :: ws) = m.absorbAll ws := by simp [JobM.absorbAll, hs]
      rw [this]; exact ih ⟨ja, hja⟩
    | some m' =>
      have : m.absorbAll (w :: ws) = m'.absorbAll ws := by simp [JobM.absorbAll, hs]
      rw [this]; exact ih ⟨ja ++ [w], runs_snoc.2 ⟨m, hja, hs⟩⟩

/-! ## The moves of a call -/

theorem movesOf_snoc (i : Nat) (acts : List RemoteStackAct) (a : RemoteStackAct) :
    movesOf i (acts ++ [a]) = movesOf i acts ++ movesOf i [a] := by simp [movesOf]

/-- Not a move of the engine. -/
def notEngine (a : RemoteAct) : Bool := match a with | .setSignal _ | .engPoll => false | _ => true

theorem remoteReach_snoc {na : List RemoteAct} {n n' : RemoteRun} {a : RemoteAct} (h : RemoteReach na n)
    (hs : n.step a = some n') : RemoteReach (na ++ [a]) n' := runs_snoc.2 ⟨n, h, hs⟩

/-- The engine's moves, seen by the call. -/
theorem engineMoved_spec {n : RemoteRun} {na : List RemoteAct} (h : RemoteReach na n) {a : JobAct} {m : JobM} :
    ∃ na', RemoteReach na' (n.engineMoved a m) ∧ na'.filter notEngine = na.filter notEngine := by
  have h1 : ∃ na', RemoteReach na' (if a = .recv then (n.step .engPoll).getD n else n) ∧
      na'.filter notEngine = na.filter notEngine := by
    split
    · cases hs : n.step .engPoll with
      | none => exact ⟨na, by simpa using h, rfl⟩
      | some n' => exact ⟨na ++ [.engPoll], by simpa using remoteReach_snoc h hs, by simp [notEngine]⟩
    · exact ⟨na, h, rfl⟩
  obtain ⟨na1, h2, h3⟩ := h1
  simp only [RemoteRun.engineMoved]
  split
  · rename_i v hv
    exact ⟨na1 ++ [.setSignal v], remoteReach_snoc h2 rfl, by simp [notEngine, h3]⟩
  · exact ⟨na1, h2, h3⟩

theorem engineMoved_other {n : RemoteRun} {a : JobAct} {m : JobM} (ha : a ≠ .recv) :
    (n.engineMoved a m).outer = n.outer ∧ (n.engineMoved a m).engineDone = n.engineDone := by
  simp only [RemoteRun.engineMoved, if_neg ha]
  split <;> exact ⟨rfl, rfl⟩

theorem engineMoved_signal {n : RemoteRun} {a : JobAct} {m m' : JobM} (h : n.sig.signal = m.sig.signal)
    (hk : ∀ v, m.sig.signal = some v → m'.sig.signal = some v) : (n.engineMoved a m').sig.signal = m'.sig.signal := by
  have h1 : (if a = .recv then (n.step .engPoll).getD n else n).sig = n.sig := by
    split
    · simp only [RemoteRun.step]
      (repeat' split) <;> rfl
    · rfl
  simp only [RemoteRun.engineMoved]
  split
  · rename_i v hv
    simp only [h1, set_signal, h, hv]
    cases hm : m.sig.signal with
    | none => rfl
    | some w => rw [hk w hm] at hv; exact hv
  · rename_i hv
    rw [h1, h]
    cases hm : m.sig.signal with
    | none => exact hv.symm
    | some w => rw [hk w hm] at hv; cases hv

/-- Fields of the call the engine's moves leave alone. -/
theorem engineMoved_frame (n : RemoteRun) (a : JobAct) (m : JobM) :
    (n.engineMoved a m).cli = n.cli ∧ (n.engineMoved a m).srv = n.srv ∧ (n.engineMoved a m).sigSent = n.sigSent ∧
    (n.engineMoved a m).inner = n.inner ∧ (n.engineMoved a m).sig.isNotified = n.sig.isNotified ∧
    (∀ v, n.sig.signal = some v → (n.engineMoved a m).sig.signal = some v) := by
  have h1 : ∀ b : Bool, ∃ o d g, (if b then (n.step .engPoll).getD n else n) = { n with outer := o, engineDone := d, engineGot := g } := by
    intro b
    cases b
    · exact ⟨n.outer, n.engineDone, n.engineGot, rfl⟩
    · simp only [RemoteRun.step, if_true]
      (repeat' split) <;> exact ⟨_, _, _, rfl⟩
  obtain ⟨o, d, g, e⟩ := h1 (decide (a = .recv))
  simp only [decide_eq_true_eq] at e
  simp only [RemoteRun.engineMoved, e]
  split
  · exact ⟨rfl, rfl, rfl, rfl, set_notified _ _, fun v h => by simp [set_signal, h]⟩
  · exact ⟨rfl, rfl, rfl, rfl, rfl, fun v h => h⟩

/-! ## The invariant -/

/-- Both sides of the current call see the same stream and the same signal, and each follows its own rules. -/
structure RStackInv (job : Job) (t : Time) (acts : List RemoteStackAct) (s : RemoteStack) : Prop where
  eng : ∃ ja, JobReach job t ja s.eng
  nets : ∀ (i : Nat) (x : RemoteExec), s.execs[i]? = some x →
    ∃ na, RemoteReach na x.net ∧ na.filter notEngine = movesOf i acts
  later : ∀ i, s.execs.length ≤ i → movesOf i acts = []
  cur : ∀ i, s.current = some i → i < s.execs.length
  link : ∀ (i : Nat) (x : RemoteExec), s.eng.pc.reading = true → s.current = some i → s.execs[i]? = some x →
    x.net.outer.logs = s.eng.stream.logs ∧ x.net.outer.result = s.eng.stream.result ∧
    x.net.outer.index = s.eng.stream.index ∧ x.net.engineDone = false ∧ x.net.sig.signal = s.eng.sig.signal ∧
    ∃ st, runningStep s.eng.pc = some st ∧ x.command = st.toCommand
  none : s.eng.pc.reading = true → s.current = none →
    s.eng.stream.logs = [Log.ofError "No runner available"] ∧ s.eng.stream.result = some (.failed 1)
  calling : ∀ st t0, s.eng.pc = .calling st t0 → s.eng.stream = {} ∧ s.eng.sig = {}

/-- A move of the engine that reads the stream: the call's copy is read alike. -/
theorem recv_engPoll {m m' : JobM} {n : RemoteRun} (hs : m.step .recv = some m') (h1 : n.outer.logs = m.stream.logs)
    (h2 : n.outer.result = m.stream.result) (h3 : n.outer.index = m.stream.index) (h4 : n.engineDone = false) :
    ∃ n', n.step .engPoll = some n' ∧
      (m'.pc.reading = true → n'.outer.logs = m'.stream.logs ∧ n'.outer.result = m'.stream.result ∧
        n'.outer.index = m'.stream.index ∧ n'.engineDone = false) ∧
      (m'.pc.reading = false → n'.engineDone = true ∧ n'.outer.logs = n.outer.logs ∧ n'.outer.result = n.outer.result ∧
        n'.engineGot = n.engineGot) := by
  simp only [JobM.step] at hs
  split at hs
  · rename_i st t0 d hp
    simp only [StreamState.poll] at hs
    simp only [RemoteRun.step, h4, StreamState.poll, h1, h2, h3]
    cases hl : m.stream.logs[m.stream.index]? with
    | some l =>
      simp only [hl, Option.some.injEq] at hs
      subst hs
      exact ⟨_, rfl, fun _ => ⟨rfl, rfl, rfl, rfl⟩, fun hf => by simp [JobPc.reading] at hf⟩
    | none =>
      cases hr : m.stream.result with
      | none => simp [hl, hr] at hs
      | some r =>
        simp only [hl, hr, Option.isSome_some, if_true, Option.some.injEq] at hs
        subst hs
        simp only [JobM.stepDone]
        exact ⟨_, rfl, fun hf => by simp [JobPc.reading] at hf, fun _ => ⟨rfl, rfl, rfl, rfl⟩⟩
  · cases hs

/-- The engine reads while it goes on reading: a move that is not `recv` leaves the stream alone. -/
theorem eng_index {m m' : JobM} {a : JobAct} (ha : a.byRunner = false) (hne : a ≠ .recv) (hs : m.step a = some m')
    (h' : m'.pc.reading = true) : m'.stream.index = m.stream.index := by
  cases a <;> simp only [JobAct.byRunner, reduceCtorEq] at ha <;> simp only [JobM.step] at hs
  case recv => exact absurd rfl hne
  all_goals
    repeat' (split at hs)
    all_goals simp only [Option.some.injEq, reduceCtorEq] at hs
    all_goals (subst hs; first | rfl | (simp [JobPc.reading] at h'; done) | (simp_all [JobM.emit, JobPc.reading]; done))

theorem set_get {α : Type} {l : List α} {i : Nat} {y : α} {j : Nat} {x : α} (h : (l.set i y)[j]? = some x) :
    (i = j ∧ x = y ∧ i < l.length) ∨ (i ≠ j ∧ l[j]? = some x) := by
  rw [List.getElem?_set] at h
  split at h
  · rename_i e
    split at h
    · rename_i hl
      simp only [Option.some.injEq] at h
      exact .inl ⟨e, h.symm, hl⟩
    · cases h
  · rename_i e; exact .inr ⟨e, h⟩

/-- A move of call `i`, whatever it then does to the servers' maps. -/
theorem moved_inv {job : Job} {t : Time} {acts : List RemoteStackAct} {s : RemoteStack} {i : Nat} {x : RemoteExec}
    {n : RemoteRun} {a : RemoteAct} {b : RemoteStackAct} (h : RStackInv job t acts s) (hget : s.execs[i]? = some x)
    (hb : (∀ v, a ≠ .setSignal v) ∧ a ≠ .engPoll) (hstep : x.net.step a = some n)
    (hmoves : ∀ j, movesOf j [b] = if j = i then [a] else []) : RStackInv job t (acts ++ [b]) (s.moved i x n) := by
  obtain ⟨hg, hix, hdone, _, hsig⟩ := net_step hb hstep
  have hlt : i < s.execs.length := (List.getElem?_eq_some_iff.1 hget).1
  have hnots : notEngine a = true := by
    cases a <;> first | rfl | exact absurd rfl (hb.1 _) | exact absurd rfl hb.2
  have nets : ∀ (j : Nat) (y : RemoteExec), (s.moved i x n).execs[j]? = some y →
      ∃ na, RemoteReach na y.net ∧ na.filter notEngine = movesOf j (acts ++ [b]) := by
    intro j y hy
    rw [movesOf_snoc, hmoves]
    rcases set_get hy with ⟨rfl, rfl, _⟩ | ⟨hne, hy⟩
    · obtain ⟨na, h1, h2⟩ := h.nets i x hget
      exact ⟨na ++ [a], remoteReach_snoc h1 hstep, by simp [h2, hnots]⟩
    · obtain ⟨na, h1, h2⟩ := h.nets j y hy
      exact ⟨na, h1, by rw [if_neg (Ne.symm hne), List.append_nil]; exact h2⟩
  have later : ∀ j, (s.moved i x n).execs.length ≤ j → movesOf j (acts ++ [b]) = [] := by
    intro j hj
    simp only [RemoteStack.moved, List.length_set] at hj
    rw [movesOf_snoc, h.later j hj, hmoves, if_neg (by omega)]; rfl
  have cur : ∀ j, (s.moved i x n).current = some j → j < (s.moved i x n).execs.length := by
    intro j hj
    simp only [RemoteStack.moved, List.length_set]
    exact h.cur j hj
  by_cases hc : s.eng.pc.reading = true ∧ s.current = some i
  · obtain ⟨hr, hcur⟩ := hc
    obtain ⟨e1, e2, e3, e4, e5, e6⟩ := h.link i x hr hcur hget
    obtain ⟨st, a1, a2, a3, a4⟩ := absorbAll_spec hr hg e1 e2
    have heng : (s.moved i x n).eng = { s.eng with stream := st } := by
      simp [RemoteStack.moved, hr, hcur, a1]
    refine ⟨?_, nets, later, cur, ?_, ?_, ?_⟩
    · rw [heng, ← a1]; exact absorbAll_reach h.eng _
    · intro j y _ hj hy
      simp only [RemoteStack.moved] at hj
      rw [hcur, Option.some.injEq] at hj
      subst hj
      rcases set_get hy with ⟨_, rfl, _⟩ | ⟨hne, _⟩
      · rw [heng]
        exact ⟨a2.symm, a3.symm, by rw [hix, e3, a4], by rw [hdone, e4], by rw [hsig, e5], e6⟩
      · exact absurd rfl hne
    · intro _ hj
      simp only [RemoteStack.moved] at hj
      rw [hcur] at hj; cases hj
    · intro st' t0 hp
      rw [heng] at hp
      simp only at hp
      simp [hp, JobPc.reading] at hr
  · have heng : (s.moved i x n).eng = s.eng := by
      simp only [RemoteStack.moved]
      have : (s.eng.pc.reading && s.current == some i) = false := by
        cases hr : s.eng.pc.reading
        · rfl
        · simp [hr] at hc; simp [hc]
      rw [this]; rfl
    refine ⟨by rw [heng]; exact h.eng, nets, later, cur, ?_, by rw [heng]; exact h.none, by rw [heng]; exact h.calling⟩
    intro j y hr hj hy
    rw [heng] at hr ⊢
    rcases set_get hy with ⟨rfl, rfl, _⟩ | ⟨_, hy⟩
    · exact absurd ⟨hr, hj⟩ hc
    · exact h.link j y hr hj hy

/-- The servers' maps and the signals there do not matter to the invariant. -/
theorem RStackInv.congr {job : Job} {t : Time} {acts : List RemoteStackAct} {s s' : RemoteStack} (h : RStackInv job t acts s)
    (h1 : s'.eng = s.eng) (h2 : s'.current = s.current)
    (h3 : s'.execs.map (fun x => (x.command, x.net)) = s.execs.map (fun x => (x.command, x.net))) : RStackInv job t acts s' := by
  have hlen : s'.execs.length = s.execs.length := by simpa using congrArg List.length h3
  have hget : ∀ (i : Nat) (x : RemoteExec), s'.execs[i]? = some x → ∃ y, s.execs[i]? = some y ∧ y.command = x.command ∧ y.net = x.net := by
    intro i x hx
    have := congrArg (·[i]?) h3
    simp only [List.getElem?_map, hx, Option.map_some] at this
    cases hy : s.execs[i]? with
    | none => simp [hy] at this
    | some y =>
      simp only [hy, Option.map_some, Option.some.injEq, Prod.mk.injEq] at this
      exact ⟨y, rfl, this.1.symm, this.2.symm⟩
  refine ⟨by rw [h1]; exact h.eng, ?_, by rw [hlen]; exact h.later, by rw [h2, hlen]; exact h.cur, ?_, by rw [h1, h2]; exact h.none,
    by rw [h1]; exact h.calling⟩
  · intro i x hx
    obtain ⟨y, g1, g2, g3⟩ := hget i x hx
    rw [← g3]; exact h.nets i y g1
  · intro i x hr hc hx
    obtain ⟨y, g1, g2, g3⟩ := hget i x hx
    rw [h1] at hr ⊢
    rw [h2] at hc
    rw [← g3, ← g2]; exact h.link i y hr hc g1

theorem modify_map_same {α β : Type} {l : List α} {i : Nat} {f : α → α} {g : α → β} (h : ∀ x, g (f x) = g x) :
    (l.modify i f).map g = l.map g := by
  apply List.ext_getElem?
  intro j
  simp only [List.getElem?_map, List.getElem?_modify]
  split <;> cases l[j]? <;> simp [h]

theorem signalArrives_same (s : RemoteStack) (sv : Id) (st : StepId) (v : Signal) :
    (s.signalArrives sv st v).eng = s.eng ∧ (s.signalArrives sv st v).current = s.current ∧
    (s.signalArrives sv st v).signals = s.signals ∧
    (s.signalArrives sv st v).execs.map (fun x => (x.command, x.net)) = s.execs.map (fun x => (x.command, x.net)) := by
  simp only [RemoteStack.signalArrives]
  split
  · exact ⟨rfl, rfl, rfl, modify_map_same fun _ => rfl⟩
  · exact ⟨rfl, rfl, rfl, rfl⟩

/-- What a `net` move is. -/
theorem rnet_step {s s' : RemoteStack} {i : Nat} {a : RemoteAct} (hs : s.step (.net i a) = some s') :
    ∃ x n, s.execs[i]? = some x ∧ a.byStack = false ∧ x.net.step a = some n ∧
      (((a = .rpcOk ∨ ∃ e, a = .rpcErr e true) ∧
          s' = { s.moved i x n with signals := s.signals.insert (x.server, x.command.id) i }) ∨
        (∃ v, a = .sigOk ∧ x.net.cli = .signalling v ∧ s' = (s.moved i x n).signalArrives x.server x.command.id v) ∨
        (a ≠ .rpcOk ∧ (∀ e, a ≠ .rpcErr e true) ∧ a ≠ .sigOk ∧ s' = s.moved i x n)) := by
  simp only [RemoteStack.step] at hs
  split at hs
  · rename_i x hx
    split at hs
    · cases hs
    · rename_i hb
      simp only [Option.map_eq_some_iff] at hs
      obtain ⟨n, hn, e⟩ := hs
      refine ⟨x, n, hx, by simpa using hb, hn, ?_⟩
      split at e
      · exact .inl ⟨.inl rfl, e.symm⟩
      · exact .inl ⟨.inr ⟨_, rfl⟩, e.symm⟩
      · rename_i hn'
        split at e
        · rename_i v hv
          exact .inr (.inl ⟨v, rfl, hv, e.symm⟩)
        · rename_i hv
          exfalso
          cases hcli : x.net.cli <;> simp [RemoteRun.step, hcli] at hn
          exact hv _ hcli
      · rename_i h1 h2 h3
        exact .inr (.inr ⟨h1, fun e => h2 e, h3, e.symm⟩)
  · cases hs

theorem rfail_step {s s' : RemoteStack} {i : Nat} {b : Bool} (hs : s.step (.signalFailed i b) = some s') :
    ∃ x n v, s.execs[i]? = some x ∧ x.net.step .sigErr = some n ∧ x.net.cli = .signalling v ∧
      s' = if b then (s.moved i x n).signalArrives x.server x.command.id v else s.moved i x n := by
  simp only [RemoteStack.step] at hs
  split at hs
  · rename_i x hx
    simp only [Option.map_eq_some_iff] at hs
    obtain ⟨n, hn, e⟩ := hs
    have hn' := hn
    simp only [RemoteRun.step] at hn'
    split at hn'
    · rename_i v hv
      refine ⟨x, n, v, hx, hn, hv, ?_⟩
      rw [← e]
      cases b <;> simp [hv]
    · cases hn'
  · cases hs

theorem byStack_false {a : RemoteAct} (h : a.byStack = false) : (∀ v, a ≠ .setSignal v) ∧ a ≠ .engPoll := by
  cases a <;> simp_all [RemoteAct.byStack]

theorem rstackInv_step {job : Job} {t : Time} {acts : List RemoteStackAct} {s s' : RemoteStack} {a : RemoteStackAct}
    (h : RStackInv job t acts s) (hs : s.step a = some s') : RStackInv job t (acts ++ [a]) s' := by
  obtain ⟨ja, hja⟩ := h.eng
  have ext : ∀ b m, s.eng.step b = some m → ∃ ja, JobReach job t ja m :=
    fun b m hm => ⟨ja ++ [b], runs_snoc.2 ⟨s.eng, hja, hm⟩⟩
  cases a with
  | eng a =>
    have hmv : ∀ j, movesOf j (acts ++ [.eng a]) = movesOf j acts := by
      intro j; rw [movesOf_snoc]; simp [movesOf]
    simp only [RemoteStack.step] at hs
    split at hs
    · cases hs
    · rename_i hb
      have hb' : a.byRunner = false := by simpa using hb
      simp only [Option.map_eq_some_iff] at hs
      obtain ⟨m, hm, rfl⟩ := hs
      -- the executions after the move
      have hex : ∀ (j : Nat) (y : RemoteExec), (s.engineMoved a m)[j]? = some y →
          ∃ z, s.execs[j]? = some z ∧ y.command = z.command ∧
            (y.net = z.net ∧ (s.eng.pc.reading = true → s.current ≠ some j) ∨ y.net = z.net.engineMoved a m) := by
        intro j y hy
        simp only [RemoteStack.engineMoved] at hy
        cases hc : s.current with
        | none => rw [hc] at hy; exact ⟨y, hy, rfl, .inl ⟨rfl, by simp⟩⟩
        | some i =>
          rw [hc] at hy
          simp only at hy
          split at hy
          · rename_i hr
            rw [List.getElem?_modify] at hy
            by_cases hij : i = j
            · subst hij
              cases hz : s.execs[i]? with
              | none => simp [hz] at hy
              | some z =>
                simp [hz] at hy
                exact ⟨z, rfl, by rw [← hy], .inr (by rw [← hy])⟩
            · simp [hij] at hy
              exact ⟨y, hy, rfl, .inl ⟨rfl, by simp [hij]⟩⟩
          · rename_i hr
            exact ⟨y, hy, rfl, .inl ⟨rfl, fun hh => absurd hh hr⟩⟩
      have hlen : (s.engineMoved a m).length = s.execs.length := by
        simp only [RemoteStack.engineMoved]
        split
        · split <;> simp
        · rfl
      refine ⟨ext a m hm, ?_, ?_, ?_, ?_, ?_, fun st t0 hc => eng_calling hb' hm hc (h.calling st t0)⟩
      · intro j y hy
        rw [hmv]
        obtain ⟨z, hz, _, hn⟩ := hex j y hy
        obtain ⟨na, h1, h2⟩ := h.nets j z hz
        rcases hn with ⟨hn, _⟩ | hn
        · exact ⟨na, by rw [hn]; exact h1, h2⟩
        · rw [hn]
          obtain ⟨na', h3, h4⟩ := engineMoved_spec h1 (a := a) (m := m)
          exact ⟨na', h3, by rw [h4, h2]⟩
      · intro j hj
        rw [hmv]
        exact h.later j (by rw [hlen] at hj; exact hj)
      · intro j hj
        simp only
        rw [hlen]
        exact h.cur j hj
      · intro j y hr hc hy
        simp only at hr hc
        obtain ⟨h1, h2, h3, h4, h5⟩ := eng_reading hb' hm hr
        obtain ⟨z, hz, hcmd, hn⟩ := hex j y hy
        obtain ⟨e1, e2, e3, e4, e5, st, e6, e7⟩ := h.link j z h1 hc hz
        rcases hn with ⟨_, hn⟩ | hn
        · exact absurd hc (hn h1)
        · have hsig := engineMoved_signal (a := a) e5 h4
          have hst : ∃ st, runningStep m.pc = some st ∧ y.command = st.toCommand := ⟨st, by rw [h5]; exact e6, by rw [hcmd, e7]⟩
          by_cases ha : a = .recv
          · subst ha
            obtain ⟨n', g1, g2, _⟩ := recv_engPoll hm e1 e2 e3 e4
            obtain ⟨k1, k2, k3, k4⟩ := g2 hr
            have ho : (z.net.engineMoved .recv m).outer = n'.outer ∧ (z.net.engineMoved .recv m).engineDone = n'.engineDone := by
              simp only [RemoteRun.engineMoved, if_true, g1, Option.getD_some]
              split <;> exact ⟨rfl, rfl⟩
            rw [hn, ho.1, ho.2]
            exact ⟨k1, k2, k3, k4, hsig, hst⟩
          · obtain ⟨o1, o2⟩ := engineMoved_other (n := z.net) (m := m) ha
            rw [hn, o1, o2]
            exact ⟨by rw [h2, e1], by rw [h3, e2], by rw [eng_index hb' ha hm hr, e3], e4, hsig, hst⟩
      · intro hr hc
        simp only at hr hc
        obtain ⟨h1, h2, h3, _, _⟩ := eng_reading hb' hm hr
        obtain ⟨g1, g2⟩ := h.none h1 hc
        simp only
        exact ⟨by rw [h2, g1], by rw [h3, g2]⟩
  | dispatched sv =>
    have hmv : ∀ j, movesOf j (acts ++ [.dispatched sv]) = movesOf j acts := by
      intro j; rw [movesOf_snoc]; simp [movesOf]
    simp only [RemoteStack.step] at hs
    split at hs
    · rename_i st t0 hpc
      simp only [Option.map_eq_some_iff] at hs
      obtain ⟨m, hm, rfl⟩ := hs
      have hm' := hm
      simp only [JobM.step, hpc, Option.some.injEq] at hm'
      obtain ⟨f1, f2⟩ := h.calling st t0 hpc
      have hnew : ∀ (j : Nat) (y : RemoteExec),
          (s.execs ++ [{ server := sv, command := st.toCommand }])[j]? = some y →
          s.execs[j]? = some y ∨ (j = s.execs.length ∧ y = { server := sv, command := st.toCommand }) := by
        intro j y hy
        rw [List.getElem?_append] at hy
        split at hy
        · exact .inl hy
        · right
          cases hj : j - s.execs.length with
          | zero =>
            simp only [hj, List.getElem?_cons_zero, Option.some.injEq] at hy
            exact ⟨by omega, hy.symm⟩
          | succ k => simp [hj] at hy
      refine ⟨ext _ m hm, ?_, ?_, ?_, ?_, ?_, ?_⟩
      · intro j y hy
        rw [hmv]
        rcases hnew j y hy with hy | ⟨rfl, rfl⟩
        · exact h.nets j y hy
        · exact ⟨[], rfl, by rw [h.later _ (Nat.le_refl _)]; rfl⟩
      · intro j hj
        rw [hmv]
        simp only [List.length_append, List.length_singleton] at hj
        exact h.later j (by omega)
      · intro j hj
        simp only [Option.some.injEq] at hj
        simp only [List.length_append, List.length_singleton]; omega
      · intro j y hr hc hy
        simp only [Option.some.injEq] at hc
        rcases hnew j y hy with hy | ⟨_, rfl⟩
        · have := (List.getElem?_eq_some_iff.1 hy).1
          omega
        · subst hm'
          refine ⟨?_, ?_, ?_, rfl, ?_, st, rfl, rfl⟩
          · exact (congrArg StreamState.logs f1).symm
          · exact (congrArg StreamState.result f1).symm
          · exact (congrArg StreamState.index f1).symm
          · exact (congrArg SigState.signal f2).symm
      · intro _ hc; cases hc
      · intro st' t0' hc
        subst hm'
        simp [JobM.emit] at hc
    · cases hs
  | noRunner =>
    have hmv : ∀ j, movesOf j (acts ++ [.noRunner]) = movesOf j acts := by
      intro j; rw [movesOf_snoc]; simp [movesOf]
    simp only [RemoteStack.step] at hs
    split at hs
    · rename_i st t0 hpc
      simp only [Option.map_eq_some_iff] at hs
      obtain ⟨m, hm, rfl⟩ := hs
      obtain ⟨f1, f2⟩ := h.calling st t0 hpc
      obtain ⟨jb, hjb⟩ := absorbAll_reach h.eng [.push (Log.ofError "No runner available"), .endStream (.failed 1)]
      have hm' := hm
      simp only [JobM.absorbAll, List.foldl, JobM.step, hpc, Option.getD_some, Option.some.injEq] at hm'
      refine ⟨⟨_, runs_snoc.2 ⟨_, hjb, hm⟩⟩, fun j y hy => by rw [hmv]; exact h.nets j y hy,
        fun j hj => by rw [hmv]; exact h.later j hj, by simp, by simp, fun _ _ => ?_, ?_⟩
      · subst hm'
        simp only [JobM.emit, f1]
        exact ⟨rfl, rfl⟩
      · intro st' t0' hc
        subst hm'
        simp [JobM.emit] at hc
    · cases hs
  | net i a =>
    obtain ⟨x, n, hget, hb, hstep, hcase⟩ := rnet_step hs
    have hbase := moved_inv (b := .net i a) h hget (byStack_false hb) hstep (by
      intro j; simp only [movesOf, List.filterMap_cons, List.filterMap_nil, eq_comm (a := i)]
      split <;> simp_all)
    rcases hcase with ⟨_, rfl⟩ | ⟨v, _, _, rfl⟩ | ⟨_, _, _, rfl⟩
    · exact hbase.congr rfl rfl rfl
    · obtain ⟨g1, g2, _, g4⟩ := signalArrives_same (s.moved i x n) x.server x.command.id v
      exact hbase.congr g1 g2 g4
    · exact hbase
  | signalFailed i b =>
    obtain ⟨x, n, v, hget, hstep, _, hcase⟩ := rfail_step hs
    have hbase := moved_inv (b := .signalFailed i b) h hget (by simp) hstep (by
      intro j; simp only [movesOf, List.filterMap_cons, List.filterMap_nil, eq_comm (a := i)]
      split <;> simp_all)
    subst hcase
    split
    · obtain ⟨g1, g2, _, g4⟩ := signalArrives_same (s.moved i x n) x.server x.command.id v
      exact hbase.congr g1 g2 g4
    · exact hbase
  | stepCompleted sv r =>
    have hmv : ∀ j, movesOf j (acts ++ [.stepCompleted sv r]) = movesOf j acts := by
      intro j; rw [movesOf_snoc]; simp [movesOf]
    simp only [RemoteStack.step] at hs
    split at hs <;> cases hs
    exact ⟨h.eng, fun j y hy => by rw [hmv]; exact h.nets j y hy, fun j hj => by rw [hmv]; exact h.later j hj, h.cur, h.link,
      h.none, h.calling⟩

theorem rstackInv_reach {job : Job} {t : Time} {acts : List RemoteStackAct} {s : RemoteStack}
    (h : RemoteStackReach job t acts s) : RStackInv job t acts s := by
  refine runs_induct (P := fun acts s => RStackInv job t acts s) ?_ (fun _ _ _ _ _ ih hs => rstackInv_step ih hs) h
  refine ⟨⟨[], rfl⟩, ?_, fun _ _ => rfl, ?_, ?_, ?_, ?_⟩ <;> simp [RemoteStack.initial, JobM.initial, JobPc.reading]

end AstroRun
