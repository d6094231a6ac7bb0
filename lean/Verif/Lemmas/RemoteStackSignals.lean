import Verif.Lemmas.RemoteStack
import Verif.Props.RemoteEvents

/-! # Lemmas: the way of a signal to the server -/

namespace AstroRun
open Spec

theorem sendInv_reach {acts : List RemoteAct} {m : RemoteRun} (h : RemoteReach acts m) : SendInv m :=
  runs_induct (P := fun _ m => SendInv m) ⟨.inl rfl, by simp⟩ (fun _ _ _ _ _ ih hs => send_step ih hs) h

/-! ## Traces grow -/

theorem job_trace_step {job : Job} {t : Time} {ja : List JobAct} {m m' : JobM} {a : JobAct} (h : JobReach job t ja m)
    (hs : m.step a = some m') : ∀ e ∈ m.acc.trace, e ∈ m'.acc.trace := by
  intro e he
  have hinit := (pcInv_run h).1
  cases a <;> simp only [JobM.step] at hs
  case check b =>
    split at hs
    · rename_i hp
      simp only [PcInv, hp] at hinit
      rw [hinit] at he; cases he
    · cases hs
  case finishJob =>
    split at hs
    · simp only [Option.some.injEq] at hs
      subst hs
      simp only [JobAcc.finish]
      split <;> simp [he]
    · cases hs
  all_goals
    repeat' (split at hs)
    all_goals simp only [Option.some.injEq, reduceCtorEq] at hs
    all_goals (subst hs; first | exact he | (simp [JobM.emit, JobM.stepDone, he]; done))

theorem absorbAll_trace {ws : List JobAct} (hw : ∀ w ∈ ws, (∃ l, w = .push l) ∨ ∃ r, w = .endStream r) (m : JobM) :
    (m.absorbAll ws).acc = m.acc ∧ (m.absorbAll ws).jobSig = m.jobSig ∧ (m.absorbAll ws).pc = m.pc := by
  induction ws generalizing m with
  | nil => exact ⟨rfl, rfl, rfl⟩
  | cons w ws ih =>
    have : m.absorbAll (w :: ws) = ((m.step w).getD m).absorbAll ws := rfl
    rw [this]
    obtain ⟨h1, h2, h3⟩ := ih (fun x hx => hw x (by simp [hx])) ((m.step w).getD m)
    have : ((m.step w).getD m).acc = m.acc ∧ ((m.step w).getD m).jobSig = m.jobSig ∧ ((m.step w).getD m).pc = m.pc := by
      rcases hw w (by simp) with ⟨l, rfl⟩ | ⟨r, rfl⟩ <;> simp only [JobM.step] <;> split <;> exact ⟨rfl, rfl, rfl⟩
    rw [h1, h2, h3]
    exact this

theorem writes_runner (o o' : StreamState) : ∀ w ∈ o.writes o', (∃ l, w = .push l) ∨ ∃ r, w = .endStream r := by
  intro w hw
  simp only [StreamState.writes, List.mem_append, List.mem_map] at hw
  rcases hw with ⟨l, _, rfl⟩ | hw
  · exact .inl ⟨l, rfl⟩
  · split at hw
    · cases hr : o'.result with
      | none => simp [hr] at hw
      | some r => simp [hr] at hw; exact .inr ⟨r, hw⟩
    · cases hw

theorem moved_eng (s : RemoteStack) (i : Nat) (x : RemoteExec) (n : RemoteRun) :
    (s.moved i x n).eng.acc = s.eng.acc ∧ (s.moved i x n).eng.jobSig = s.eng.jobSig ∧ (s.moved i x n).eng.pc = s.eng.pc := by
  simp only [RemoteStack.moved]
  split
  · exact absorbAll_trace (writes_runner _ _) _
  · exact ⟨rfl, rfl, rfl⟩

theorem rstack_trace {job : Job} {t : Time} {acts : List RemoteStackAct} {s s' : RemoteStack} {a : RemoteStackAct}
    (h : RStackInv job t acts s) (hs : s.step a = some s') : ∀ e ∈ s.eng.acc.trace, e ∈ s'.eng.acc.trace := by
  intro e he
  obtain ⟨ja, hja⟩ := h.eng
  cases a with
  | eng a =>
    simp only [RemoteStack.step] at hs
    split at hs
    · cases hs
    · simp only [Option.map_eq_some_iff] at hs
      obtain ⟨m, hm, rfl⟩ := hs
      exact job_trace_step hja hm e he
  | dispatched sv =>
    simp only [RemoteStack.step] at hs
    split at hs
    · simp only [Option.map_eq_some_iff] at hs
      obtain ⟨m, hm, rfl⟩ := hs
      exact job_trace_step hja hm e he
    · cases hs
  | noRunner =>
    simp only [RemoteStack.step] at hs
    split at hs
    · simp only [Option.map_eq_some_iff] at hs
      obtain ⟨m, hm, rfl⟩ := hs
      obtain ⟨jb, hjb⟩ := absorbAll_reach h.eng [.push (Log.ofError "No runner available"), .endStream (.failed 1)]
      refine job_trace_step hjb hm e ?_
      rw [(absorbAll_trace (by simp) _).1]; exact he
    · cases hs
  | net i a =>
    obtain ⟨x, n, _, _, _, hcase⟩ := rnet_step hs
    have := (moved_eng s i x n).1
    rcases hcase with ⟨_, rfl⟩ | ⟨v, _, _, rfl⟩ | ⟨_, _, _, rfl⟩
    · simp only [this]; exact he
    · rw [(signalArrives_same _ _ _ _).1, this]; exact he
    · rw [this]; exact he
  | signalFailed i b =>
    obtain ⟨x, n, v, _, _, _, rfl⟩ := rfail_step hs
    have := (moved_eng s i x n).1
    split
    · rw [(signalArrives_same _ _ _ _).1, this]; exact he
    · rw [this]; exact he
  | stepCompleted sv r =>
    simp only [RemoteStack.step] at hs
    split at hs <;> cases hs
    exact he

/-! ## Calls are only added -/

/-- What a move does to the calls, as far as signals are concerned. -/
structure SameCall (z y : RemoteExec) : Prop where
  server : y.server = z.server
  command : y.command = z.command
  signal : ∀ v, z.net.sig.signal = some v → y.net.sig.signal = some v
  remote : ∀ v, z.remote.signal = some v → y.remote.signal = some v

theorem SameCall.refl (z : RemoteExec) : SameCall z z := ⟨rfl, rfl, fun _ h => h, fun _ h => h⟩

theorem SameCall.trans {a b c : RemoteExec} (h : SameCall a b) (g : SameCall b c) : SameCall a c :=
  ⟨g.server.trans h.server, g.command.trans h.command, fun v hv => g.signal v (h.signal v hv), fun v hv => g.remote v (h.remote v hv)⟩

theorem engineMoved_get {s : RemoteStack} {a : JobAct} {m : JobM} (j : Nat) :
    (s.engineMoved a m)[j]? = s.execs[j]? ∨
    ∃ z, s.execs[j]? = some z ∧ (s.engineMoved a m)[j]? = some { z with net := z.net.engineMoved a m } := by
  simp only [RemoteStack.engineMoved]
  split
  · rename_i i hi
    split
    · rw [List.getElem?_modify]
      by_cases hij : i = j
      · subst hij
        cases hz : s.execs[i]? with
        | none => simp
        | some z => right; exact ⟨z, rfl, by simp⟩
      · left; simp [hij]
    · exact .inl rfl
  · exact .inl rfl

theorem moved_get {s : RemoteStack} {i : Nat} {x : RemoteExec} {n : RemoteRun} (hx : s.execs[i]? = some x) (j : Nat) :
    (s.moved i x n).execs[j]? = if j = i then some { x with net := n } else s.execs[j]? := by
  have hlt := (List.getElem?_eq_some_iff.1 hx).1
  simp only [RemoteStack.moved, List.getElem?_set, hlt, if_true, eq_comm (a := i)]

theorem arrives_get (s : RemoteStack) (sv : Id) (st : StepId) (v : Signal) (j : Nat) :
    (s.signalArrives sv st v).execs[j]? = s.execs[j]? ∧ s.signals.get? (sv, st) ≠ some j ∨
    s.signals.get? (sv, st) = some j ∧
      (s.signalArrives sv st v).execs[j]? = (s.execs[j]?).map fun x => { x with remote := (x.remote.set v).state } := by
  simp only [RemoteStack.signalArrives]
  split
  · rename_i i hi
    rw [List.getElem?_modify]
    by_cases hij : i = j
    · subst hij; right; exact ⟨hi, by simp⟩
    · left; exact ⟨by simp [hij], by rw [hi]; simp [hij]⟩
  · rename_i hn; left; exact ⟨rfl, by rw [hn]; simp⟩

theorem arrives_same (s : RemoteStack) (sv : Id) (st : StepId) (v : Signal) {j : Nat} {z : RemoteExec}
    (hz : s.execs[j]? = some z) : ∃ y, (s.signalArrives sv st v).execs[j]? = some y ∧ SameCall z y ∧ y.net = z.net := by
  rcases arrives_get s sv st v j with ⟨h, _⟩ | ⟨_, h⟩
  · exact ⟨z, by rw [h, hz], SameCall.refl z, rfl⟩
  · refine ⟨{ z with remote := (z.remote.set v).state }, by rw [h, hz]; rfl, ⟨rfl, rfl, fun _ h => h, fun w hw => ?_⟩, rfl⟩
    simp [set_signal, hw]

theorem moved_same {s : RemoteStack} {i : Nat} {x : RemoteExec} {n : RemoteRun} {a : RemoteAct} (hx : s.execs[i]? = some x)
    (hb : (∀ v, a ≠ .setSignal v) ∧ a ≠ .engPoll) (hstep : x.net.step a = some n) {j : Nat} {z : RemoteExec}
    (hz : s.execs[j]? = some z) : ∃ y, (s.moved i x n).execs[j]? = some y ∧ SameCall z y := by
  rw [moved_get hx]
  split
  · rename_i e
    subst e
    rw [hx, Option.some.injEq] at hz
    subst hz
    refine ⟨_, rfl, rfl, rfl, fun v hv => ?_, fun _ h => h⟩
    rw [(net_step hb hstep).2.2.2.2]; exact hv
  · exact ⟨z, hz, SameCall.refl z⟩

/-- Calls stay. -/
theorem execs_keep {s s' : RemoteStack} {a : RemoteStackAct} (hs : s.step a = some s') {j : Nat} {z : RemoteExec}
    (hz : s.execs[j]? = some z) : ∃ y, s'.execs[j]? = some y ∧ SameCall z y := by
  cases a with
  | eng a =>
    simp only [RemoteStack.step] at hs
    split at hs
    · cases hs
    · simp only [Option.map_eq_some_iff] at hs
      obtain ⟨m, hm, rfl⟩ := hs
      rcases engineMoved_get (s := s) (a := a) (m := m) j with h | ⟨w, h1, h2⟩
      · exact ⟨z, by simp only [h, hz], SameCall.refl z⟩
      · rw [hz, Option.some.injEq] at h1
        subst h1
        exact ⟨_, h2, rfl, rfl, (engineMoved_frame z.net a m).2.2.2.2.2, fun _ h => h⟩
  | dispatched sv =>
    simp only [RemoteStack.step] at hs
    split at hs
    · simp only [Option.map_eq_some_iff] at hs
      obtain ⟨m, hm, rfl⟩ := hs
      refine ⟨z, ?_, SameCall.refl z⟩
      have := (List.getElem?_eq_some_iff.1 hz).1
      simp only [List.getElem?_append_left this, hz]
    · cases hs
  | noRunner =>
    simp only [RemoteStack.step] at hs
    split at hs
    · simp only [Option.map_eq_some_iff] at hs
      obtain ⟨m, hm, rfl⟩ := hs
      exact ⟨z, hz, SameCall.refl z⟩
    · cases hs
  | net i a =>
    obtain ⟨x, n, hx, hb, hstep, hcase⟩ := rnet_step hs
    obtain ⟨y, h1, h2⟩ := moved_same hx (byStack_false hb) hstep hz
    rcases hcase with ⟨_, rfl⟩ | ⟨v, _, _, rfl⟩ | ⟨_, _, _, rfl⟩
    · exact ⟨y, h1, h2⟩
    · obtain ⟨y', g1, g2, _⟩ := arrives_same _ x.server x.command.id v h1
      exact ⟨y', g1, h2.trans g2⟩
    · exact ⟨y, h1, h2⟩
  | signalFailed i b =>
    obtain ⟨x, n, v, hx, hstep, _, rfl⟩ := rfail_step hs
    obtain ⟨y, h1, h2⟩ := moved_same hx (by simp) hstep hz
    split
    · obtain ⟨y', g1, g2, _⟩ := arrives_same _ x.server x.command.id v h1
      exact ⟨y', g1, h2.trans g2⟩
    · exact ⟨y, h1, h2⟩
  | stepCompleted sv r =>
    simp only [RemoteStack.step] at hs
    split at hs <;> cases hs
    exact ⟨z, hz, SameCall.refl z⟩

/-- Being the only call for a step was true before. -/
theorem onlyCall_back {job : Job} {t : Time} {acts : List RemoteStackAct} {s s' : RemoteStack} {a : RemoteStackAct}
    (h : RStackInv job t acts s) (hs : s.step a = some s') {i : Nat} {id : StepId} (ho : OnlyCall s' i id) : OnlyCall s i id := by
  refine ⟨fun j y hy he => ?_, fun r hr => ho.2 r (rstack_trace h hs _ hr)⟩
  obtain ⟨y', h1, h2⟩ := execs_keep hs hy
  exact ho.1 j y' h1 (by rw [h2.command]; exact he)

/-! ## The servers' maps -/

/-- What is known about signals on the servers. -/
structure RSigInv (acts : List RemoteStackAct) (s : RemoteStack) : Prop where
  source : ∀ (i : Nat) (x : RemoteExec) (v : Signal), s.execs[i]? = some x → x.remote.signal = some v →
    ∃ (j : Nat) (y : RemoteExec), s.execs[j]? = some y ∧ y.server = x.server ∧ y.command.id = x.command.id ∧ y.net.sig.signal = some v
  map : ∀ key j, s.signals.get? key = some j → ∃ y, s.execs[j]? = some y ∧ (y.server, y.command.id) = key
  reg : ∀ (i : Nat) (x : RemoteExec), s.execs[i]? = some x → RemoteAct.rpcOk ∈ movesOf i acts →
    OnlyCall s i x.command.id → s.signals.get? (x.server, x.command.id) = some i
  sent : ∀ (i : Nat) (x : RemoteExec) (v : Signal), s.execs[i]? = some x → OnlyCall s i x.command.id → v ∈ x.net.sigSent →
    x.remote.signal = some v

/-- Nothing about signals changes, except that the engine may set one, and calls may be added. -/
theorem RSigInv.same {job : Job} {t : Time} {acts : List RemoteStackAct} {s s' : RemoteStack} {a : RemoteStackAct}
    (hi : RStackInv job t acts s) (h : RSigInv acts s) (hs : s.step a = some s') (hmap : s'.signals = s.signals)
    (hmv : ∀ j, movesOf j [a] = [] ∨ (∃ b, movesOf j [a] = [b] ∧ b ≠ .rpcOk))
    (hback : ∀ (j : Nat) (y : RemoteExec), s'.execs[j]? = some y →
      (s.execs.length ≤ j ∧ y.net.sigSent = [] ∧ y.remote.signal = none) ∨
      ∃ z, s.execs[j]? = some z ∧ y.net.sigSent = z.net.sigSent ∧ y.remote = z.remote) : RSigInv (acts ++ [a]) s' := by
  refine ⟨fun i x v hx hv => ?_, fun key j hj => ?_, fun i x hx hm ho => ?_, fun i x v hx ho hv => ?_⟩
  · rcases hback i x hx with ⟨_, _, h2⟩ | ⟨z, hz, _, h2⟩
    · rw [h2] at hv; cases hv
    · rw [h2] at hv
      obtain ⟨j, y, g1, g2, g3, g4⟩ := h.source i z v hz hv
      obtain ⟨x', k1, k2⟩ := execs_keep hs hz
      rw [hx, Option.some.injEq] at k1
      subst k1
      obtain ⟨y', k3, k4⟩ := execs_keep hs g1
      exact ⟨j, y', k3, by rw [k4.server, k2.server, g2], by rw [k4.command, k2.command, g3], k4.signal v g4⟩
  · rw [hmap] at hj
    obtain ⟨y, g1, g2⟩ := h.map key j hj
    obtain ⟨y', k3, k4⟩ := execs_keep hs g1
    exact ⟨y', k3, by rw [k4.server, k4.command, g2]⟩
  · have hm' : RemoteAct.rpcOk ∈ movesOf i acts := by
      rw [movesOf_snoc, List.mem_append] at hm
      rcases hm with hm | hm
      · exact hm
      · rcases hmv i with e | ⟨b, e, hb⟩
        · rw [e] at hm; cases hm
        · rw [e, List.mem_singleton] at hm; exact absurd hm.symm hb
    rw [hmap]
    rcases hback i x hx with ⟨h1, _⟩ | ⟨z, hz, _⟩
    · rw [hi.later i h1] at hm'; cases hm'
    · obtain ⟨x', k1, k2⟩ := execs_keep hs hz
      rw [hx, Option.some.injEq] at k1
      subst k1
      rw [k2.server, k2.command]
      rw [k2.command] at ho
      exact h.reg i z hz hm' (onlyCall_back hi hs ho)
  · rcases hback i x hx with ⟨_, h1, _⟩ | ⟨z, hz, h1, h2⟩
    · rw [h1] at hv; cases hv
    · obtain ⟨x', k1, k2⟩ := execs_keep hs hz
      rw [hx, Option.some.injEq] at k1
      subst k1
      rw [h2]
      rw [k2.command] at ho
      exact h.sent i z v hz (onlyCall_back hi hs ho) (by rw [← h1]; exact hv)

/-- Only `sigOk` records a signal as sent. -/
theorem sigSent_step {n n' : RemoteRun} {a : RemoteAct} (ha : a ≠ .sigOk) (hs : n.step a = some n') : n'.sigSent = n.sigSent := by
  cases a <;> simp only [RemoteRun.step] at hs
  case sigOk => exact absurd rfl ha
  all_goals (repeat' split at hs) <;> cases hs <;> rfl

/-- A call's client task listens to the signal only after the server has the request. -/
theorem called_reach {na : List RemoteAct} {n : RemoteRun} (h : RemoteReach na n) :
    n.cli = .calling ∨ n.cli = .checking ∨ n.cli = .finished ∨ RemoteAct.rpcOk ∈ na := by
  refine runs_induct (P := fun na n => n.cli = .calling ∨ n.cli = .checking ∨ n.cli = .finished ∨ RemoteAct.rpcOk ∈ na)
    (.inl rfl) ?_ h
  intro acts a n n' _ ih hs
  cases a <;> simp only [RemoteRun.step] at hs <;> (repeat' split at hs) <;> cases hs <;> simp_all

/-- A signal arrives at a server. -/
theorem RSigInv.arrive {job : Job} {t : Time} {acts : List RemoteStackAct} {s : RemoteStack} {b : RemoteStackAct}
    {i : Nat} {x : RemoteExec} {n : RemoteRun} {a : RemoteAct} {v : Signal}
    (hi : RStackInv job t acts s) (h : RSigInv acts s) (hx : s.execs[i]? = some x) (hstep : x.net.step a = some n)
    (hb : (∀ v, a ≠ .setSignal v) ∧ a ≠ .engPoll) (hcli : x.net.cli = .signalling v)
    (hs : s.step b = some ((s.moved i x n).signalArrives x.server x.command.id v))
    (hmv : ∀ j, RemoteAct.rpcOk ∉ movesOf j [b]) (hsent : ∀ w ∈ n.sigSent, w ∈ x.net.sigSent ∨ w = v) :
    RSigInv (acts ++ [b]) ((s.moved i x n).signalArrives x.server x.command.id v) := by
  obtain ⟨na, hna, hmoves⟩ := hi.nets i x hx
  have hsig : x.net.sig.signal = some v := ((sendInv_reach hna).busy v hcli).2.1
  have hmaps : ((s.moved i x n).signalArrives x.server x.command.id v).signals = s.signals := by
    rw [(signalArrives_same _ _ _ _).2.2.1]; rfl
  have hreg : RemoteAct.rpcOk ∈ movesOf i acts := by
    rcases called_reach hna with e | e | e | e
    · rw [hcli] at e; cases e
    · rw [hcli] at e; cases e
    · rw [hcli] at e; cases e
    · rw [← hmoves]; exact List.mem_filter.2 ⟨e, rfl⟩
  -- what is at `j` afterwards
  have hback : ∀ (j : Nat) (y : RemoteExec), ((s.moved i x n).signalArrives x.server x.command.id v).execs[j]? = some y →
      ∃ z, s.execs[j]? = some z ∧ (j = i ∧ z = x ∧ y.net = n ∨ j ≠ i ∧ y.net = z.net) ∧
        (y.remote = z.remote ∧ s.signals.get? (x.server, x.command.id) ≠ some j ∨ s.signals.get? (x.server, x.command.id) = some j ∧ y.remote = (z.remote.set v).state) := by
    intro j y hy
    rcases arrives_get (s.moved i x n) x.server x.command.id v j with ⟨g, g0⟩ | ⟨g1, g⟩
    · have g0' : s.signals.get? (x.server, x.command.id) ≠ some j := g0
      rw [g, moved_get hx] at hy
      split at hy
      · rename_i e; subst e; cases hy; exact ⟨x, hx, .inl ⟨rfl, rfl, rfl⟩, .inl ⟨rfl, g0'⟩⟩
      · rename_i e; exact ⟨y, hy, .inr ⟨e, rfl⟩, .inl ⟨rfl, g0'⟩⟩
    · have g1' : s.signals.get? (x.server, x.command.id) = some j := g1
      rw [g, moved_get hx] at hy
      split at hy
      · rename_i e; subst e; cases hy; exact ⟨x, hx, .inl ⟨rfl, rfl, rfl⟩, .inr ⟨g1', rfl⟩⟩
      · rename_i e
        cases hz : s.execs[j]? with
        | none => rw [hz] at hy; cases hy
        | some z =>
          rw [hz] at hy; cases hy
          exact ⟨z, rfl, .inr ⟨e, rfl⟩, .inr ⟨g1', rfl⟩⟩
  refine ⟨fun j y w hy hw => ?_, fun key j hj => ?_, fun j y hy hm ho => ?_, fun j y w hy ho hw => ?_⟩
  · obtain ⟨z, hz, _, hr⟩ := hback j y hy
    obtain ⟨y', k1, k2⟩ := execs_keep hs hz
    rw [hy, Option.some.injEq] at k1
    subst k1
    have old : z.remote.signal = some w → ∃ (k : Nat) (u : RemoteExec),
        ((s.moved i x n).signalArrives x.server x.command.id v).execs[k]? = some u ∧ u.server = y.server ∧
        u.command.id = y.command.id ∧ u.net.sig.signal = some w := by
      intro hzw
      obtain ⟨k, u, g1, g2, g3, g4⟩ := h.source j z w hz hzw
      obtain ⟨u', k3, k4⟩ := execs_keep hs g1
      exact ⟨k, u', k3, by rw [k4.server, k2.server, g2], by rw [k4.command, k2.command, g3], k4.signal w g4⟩
    rcases hr with ⟨hr, _⟩ | ⟨hr1, hr⟩
    · exact old (by rw [← hr]; exact hw)
    · rw [hr, set_signal] at hw
      cases hzr : z.remote.signal with
      | some u => rw [hzr] at hw; exact old (by rw [hzr]; exact hw)
      | none =>
        rw [hzr] at hw
        have hvw : v = w := by simpa using hw
        subst hvw
        obtain ⟨x', k3, k4⟩ := execs_keep hs hx
        obtain ⟨z', g1, g2⟩ := h.map _ j hr1
        rw [hz, Option.some.injEq] at g1
        subst g1
        simp only [Prod.mk.injEq] at g2
        exact ⟨i, x', k3, by rw [k4.server, k2.server, g2.1], by rw [k4.command, k2.command, g2.2], k4.signal v hsig⟩
  · rw [hmaps] at hj
    obtain ⟨y, g1, g2⟩ := h.map key j hj
    obtain ⟨y', k3, k4⟩ := execs_keep hs g1
    exact ⟨y', k3, by rw [k4.server, k4.command, g2]⟩
  · rw [movesOf_snoc, List.mem_append] at hm
    rw [hmaps]
    obtain ⟨z, hz, _, _⟩ := hback j y hy
    obtain ⟨y', k1, k2⟩ := execs_keep hs hz
    rw [hy, Option.some.injEq] at k1
    subst k1
    rw [k2.server, k2.command]
    rw [k2.command] at ho
    exact h.reg j z hz (hm.resolve_right (hmv j)) (onlyCall_back hi hs ho)
  · obtain ⟨z, hz, hn, hr⟩ := hback j y hy
    obtain ⟨y', k1, k2⟩ := execs_keep hs hz
    rw [hy, Option.some.injEq] at k1
    subst k1
    rw [k2.command] at ho
    have ho' := onlyCall_back hi hs ho
    rcases hn with ⟨rfl, rfl, hn⟩ | ⟨_, hn⟩
    · rw [hn] at hw
      rcases hsent w hw with hw | rfl
      · exact k2.remote w (h.sent j z w hz ho' hw)
      · rcases hr with ⟨_, hr⟩ | ⟨_, hr⟩
        · exact absurd (h.reg j z hz hreg ho') hr
        · rw [hr, set_signal]
          cases hzr : z.remote.signal with
          | none => rfl
          | some u =>
            obtain ⟨k, y2, g1, g2, g3, g4⟩ := h.source j z u hz hzr
            have := ho'.1 k y2 g1 g3
            subst this
            rw [hz, Option.some.injEq] at g1
            subst g1
            rw [hsig] at g4
            simpa using g4.symm
    · rw [hn] at hw
      exact k2.remote w (h.sent j z w hz ho' hw)

theorem rsigInv_step {job : Job} {t : Time} {acts : List RemoteStackAct} {s s' : RemoteStack} {a : RemoteStackAct}
    (hi : RStackInv job t acts s) (h : RSigInv acts s) (hs : s.step a = some s') : RSigInv (acts ++ [a]) s' := by
  cases a with
  | eng a =>
    have hs' := hs
    simp only [RemoteStack.step] at hs'
    split at hs'
    · cases hs'
    · simp only [Option.map_eq_some_iff] at hs'
      obtain ⟨m, hm, rfl⟩ := hs'
      refine RSigInv.same hi h hs rfl (fun j => .inl (by simp [movesOf])) fun j y hy => .inr ?_
      simp only at hy
      rcases engineMoved_get (s := s) (a := a) (m := m) j with g | ⟨w, g1, g2⟩
      · exact ⟨y, by rw [← g, hy], rfl, rfl⟩
      · rw [hy, Option.some.injEq] at g2
        subst g2
        exact ⟨w, g1, (engineMoved_frame w.net a m).2.2.1, rfl⟩
  | dispatched sv =>
    have hs' := hs
    simp only [RemoteStack.step] at hs'
    split at hs'
    · simp only [Option.map_eq_some_iff] at hs'
      obtain ⟨m, hm, rfl⟩ := hs'
      refine RSigInv.same hi h hs rfl (fun j => .inl (by simp [movesOf])) fun j y hy => ?_
      simp only [List.getElem?_append] at hy
      split at hy
      · exact .inr ⟨y, hy, rfl, rfl⟩
      · rename_i hlt
        left
        refine ⟨by omega, ?_⟩
        cases hj : j - s.execs.length with
        | zero =>
          simp only [hj, List.getElem?_cons_zero, Option.some.injEq] at hy
          subst hy; exact ⟨rfl, rfl⟩
        | succ k => simp [hj] at hy
    · cases hs'
  | noRunner =>
    have hs' := hs
    simp only [RemoteStack.step] at hs'
    split at hs'
    · simp only [Option.map_eq_some_iff] at hs'
      obtain ⟨m, hm, rfl⟩ := hs'
      exact RSigInv.same hi h hs rfl (fun j => .inl (by simp [movesOf])) fun j y hy => .inr ⟨y, hy, rfl, rfl⟩
    · cases hs'
  | stepCompleted sv r =>
    have hs' := hs
    simp only [RemoteStack.step] at hs'
    split at hs' <;> cases hs'
    rename_i hr
    refine ⟨h.source, fun key j hj => ?_, fun i x hx hm ho => ?_, h.sent⟩
    · simp only at hj
      rw [AMap.get?_erase] at hj
      split at hj
      · cases hj
      · exact h.map key j hj
    · simp only at hx
      simp only [AMap.get?_erase]
      have hm' : RemoteAct.rpcOk ∈ movesOf i acts := by simpa [movesOf_snoc, movesOf] using hm
      have := h.reg i x hx hm' ⟨ho.1, ho.2⟩
      rw [if_neg]
      · exact this
      · intro e
        simp only [Prod.mk.injEq] at e
        exact ho.2 r hr (by first | exact e.2.symm | exact e.2)
  | signalFailed i b =>
    have hs' := hs
    obtain ⟨x, n, v, hx, hstep, hcli, e⟩ := rfail_step hs'
    have hmv : ∀ j, RemoteAct.rpcOk ∉ movesOf j [.signalFailed i b] := by
      intro j; by_cases hj : i = j <;> simp [movesOf, hj]
    have hsent := sigSent_step (by simp) hstep
    cases b with
    | true =>
      simp only [if_true] at e
      subst e
      exact RSigInv.arrive hi h hx hstep (by simp) hcli hs hmv fun w hw => .inl (by rw [← hsent]; exact hw)
    | false =>
      simp only [Bool.false_eq_true, if_false] at e
      subst e
      refine RSigInv.same hi h hs rfl (fun j => ?_) fun j y hy => .inr ?_
      · by_cases hj : i = j
        · exact .inr ⟨.sigErr, by simp [movesOf, hj], by simp⟩
        · exact .inl (by simp [movesOf, hj])
      · rw [moved_get hx] at hy
        split at hy
        · rename_i ej; subst ej; cases hy; exact ⟨x, hx, hsent, rfl⟩
        · exact ⟨y, hy, rfl, rfl⟩
  | net i a =>
    have hs' := hs
    obtain ⟨x, n, hx, hbs, hstep, hcase⟩ := rnet_step hs'
    have hb := byStack_false hbs
    rcases hcase with ⟨hact, rfl⟩ | ⟨v, rfl, hcli, rfl⟩ | ⟨h1, h2, h3, rfl⟩
    · have hsent := sigSent_step (by rcases hact with rfl | ⟨e, rfl⟩ <;> simp) hstep
      have hback : ∀ (j : Nat) (y : RemoteExec), (s.moved i x n).execs[j]? = some y →
          ∃ z, s.execs[j]? = some z ∧ y.server = z.server ∧ y.command = z.command ∧ y.net.sigSent = z.net.sigSent ∧ y.remote = z.remote := by
        intro j y hy
        rw [moved_get hx] at hy
        split at hy
        · rename_i ej; subst ej; cases hy; exact ⟨x, hx, rfl, rfl, hsent, rfl⟩
        · exact ⟨y, hy, rfl, rfl, rfl, rfl⟩
      have hi' : (s.moved i x n).execs[i]? = some { x with net := n } := by rw [moved_get hx, if_pos rfl]
      refine ⟨fun j y w hy hw => ?_, fun key j hj => ?_, fun j y hy hm ho => ?_, fun j y w hy ho hw => ?_⟩
      · obtain ⟨z, hz, e1, e2, _, e4⟩ := hback j y hy
        obtain ⟨k, u, g1, g2, g3, g4⟩ := h.source j z w hz (by rw [← e4]; exact hw)
        obtain ⟨u', k3, k4⟩ := execs_keep hs g1
        exact ⟨k, u', k3, by rw [k4.server, e1, g2], by rw [k4.command, e2, g3], k4.signal w g4⟩
      · simp only [AMap.get?_insert] at hj
        split at hj
        · rename_i e
          cases hj
          exact ⟨_, hi', e⟩
        · obtain ⟨y, g1, g2⟩ := h.map key j hj
          obtain ⟨y', k3, k4⟩ := execs_keep hs g1
          exact ⟨y', k3, by rw [k4.server, k4.command, g2]⟩
      · obtain ⟨z, hz, e1, e2, _, _⟩ := hback j y hy
        simp only [AMap.get?_insert]
        split
        · rename_i e
          simp only [Prod.mk.injEq] at e
          rw [ho.1 i { x with net := n } hi' e.2]
        · rename_i e
          have hji : j ≠ i := by
            rintro rfl
            rw [hx, Option.some.injEq] at hz
            subst hz
            exact e (by rw [e1, e2])
          have hm' : RemoteAct.rpcOk ∈ movesOf j acts := by
            rw [movesOf_snoc] at hm
            simpa [movesOf, Ne.symm hji] using hm
          rw [e1, e2]
          exact h.reg j z hz hm' (onlyCall_back hi hs (by rw [← e2]; exact ho))
      · obtain ⟨z, hz, e1, e2, e3, e4⟩ := hback j y hy
        rw [e4]
        exact h.sent j z w hz (onlyCall_back hi hs (by rw [← e2]; exact ho)) (by rw [← e3]; exact hw)
    · refine RSigInv.arrive hi h hx hstep hb hcli hs (fun j => ?_) fun w hw => ?_
      · by_cases hj : i = j <;> simp [movesOf, hj]
      · simp only [RemoteRun.step, hcli, Option.some.injEq] at hstep
        subst hstep
        simpa using hw
    · have hsent := sigSent_step h3 hstep
      refine RSigInv.same hi h hs rfl (fun j => ?_) fun j y hy => .inr ?_
      · by_cases hj : i = j
        · exact .inr ⟨a, by simp [movesOf, hj], h1⟩
        · exact .inl (by simp [movesOf, hj])
      · rw [moved_get hx] at hy
        split at hy
        · rename_i ej; subst ej; cases hy; exact ⟨x, hx, hsent, rfl⟩
        · exact ⟨y, hy, rfl, rfl⟩

theorem rsigInv_reach {job : Job} {t : Time} {acts : List RemoteStackAct} {s : RemoteStack} (h : RemoteStackReach job t acts s) :
    RSigInv acts s := by
  refine runs_induct (P := fun acts s => RSigInv acts s) ⟨?_, ?_, ?_, ?_⟩ (fun acts a s s' hr ih hs => rsigInv_step (rstackInv_reach hr) ih hs) h
  all_goals simp [RemoteStack.initial, AMap.get?]

end AstroRun
