import Verif.Lemmas.RemoteEngineMore

/-! # Lemmas: signals of a whole engine on their way to the servers -/

namespace AstroRun
open Spec

/-! ## Traces grow -/

theorem main_trace {ρ ρ' : SysRun} {now : Time} {a : MainAct} (h : ρ.main now a = some ρ') : ρ.trace <+: ρ'.trace := by
  cases a <;> simp only [SysRun.main] at h
  case check b =>
    split at h
    · split at h <;> cases h <;> exact List.prefix_append _ _
    · cases h
  case spawn =>
    split at h
    · cases h; exact List.prefix_refl _
    · cases h
      simp only [SysRun.setupJob]
      (repeat' split) <;> exact List.prefix_refl _
    · cases h
  case recv =>
    split at h
    · cases h
      have hf : ∀ (es : List (Id × Job)) (ρ : SysRun), (es.foldl SysRun.runJob ρ).trace = ρ.trace := by
        intro es
        induction es with
        | nil => exact fun _ => rfl
        | cons e es ih => exact fun ρ => by rw [List.foldl_cons, ih]; rfl
      simp only [SysRun.handle]
      split
      · exact List.prefix_refl _
      · unfold SysRun.rescan
        rw [hf]; exact List.prefix_refl _
    · cases h
  case announce =>
    split at h <;> cases h
    exact List.prefix_append _ _
  case complete =>
    split at h <;> cases h
    exact List.prefix_append _ _

theorem sys_trace_step {M M' : Sys} {a : SysAct} (hs : M.step a = some M') {r : Nat} {ρ : SysRun} (hr : M.runs[r]? = some ρ) :
    ∃ ρ', M'.runs[r]? = some ρ' ∧ ρ.trace <+: ρ'.trace := by
  have hlt := (List.getElem?_eq_some_iff.1 hr).1
  rcases sys_step_cases hs with ⟨wf, rfl, rfl⟩ | ⟨n, b, ρ₁, ρ₂, rfl, hρ, hmm, rfl⟩ |
    ⟨n, k, b, ρ₁, u, g', ρ₂, rfl, hρ, htt, hmm, rfl⟩ | ⟨n, rfl, rfl⟩ | ⟨j, x, rfl, rfl⟩
  · exact ⟨ρ, by simp only [List.getElem?_append_left hlt]; exact hr, List.prefix_refl _⟩
  · by_cases he : n = r
    · subst he
      rw [hr] at hρ
      cases hρ
      exact ⟨ρ₂, by simp [hlt], main_trace hmm⟩
    · exact ⟨ρ, by simp only [List.getElem?_set_ne he]; exact hr, List.prefix_refl _⟩
  · by_cases he : n = r
    · subst he
      rw [hr] at hρ
      cases hρ
      refine ⟨ρ₂, by simp [hlt], ?_⟩
      obtain ⟨_, _, ⟨h, _⟩ | ⟨e, h, _⟩⟩ := taskStep_trace hmm
      · rw [h]
      · rw [h]; exact List.prefix_append _ _
    · exact ⟨ρ, by simp only [List.getElem?_set_ne he]; exact hr, List.prefix_refl _⟩
  · exact ⟨ρ, hr, List.prefix_refl _⟩
  · exact ⟨ρ, hr, List.prefix_refl _⟩

theorem sys_trace_runs {sa : List SysAct} {M M' : Sys} (hs : runs Sys.step M sa = some M') {r : Nat} {ρ : SysRun} (hr : M.runs[r]? = some ρ) :
    ∃ ρ', M'.runs[r]? = some ρ' ∧ ρ.trace <+: ρ'.trace := by
  induction sa generalizing M ρ with
  | nil => simp only [runs, Option.some.injEq] at hs; subst hs; exact ⟨ρ, hr, List.prefix_refl _⟩
  | cons a sa ih =>
    simp only [runs] at hs
    cases h : M.step a with
    | none => rw [h] at hs; simp at hs
    | some M1 =>
      rw [h] at hs
      obtain ⟨ρ1, h1, h2⟩ := sys_trace_step h hr
      obtain ⟨ρ2, h3, h4⟩ := ih hs h1
      exact ⟨ρ2, h3, h2.trans h4⟩

/-! ## Calls -/

theorem callAt_iff {E : RemoteEngine} {r i n : Nat} {x : RemoteExec} : callAt E r i n = some x ↔ (E.calls r i)[n]? = some (some x) := by
  unfold callAt
  cases (E.calls r i)[n]? <;> simp

theorem byStack_plain {a : RemoteAct} (h : a.byStack = false) : (∀ v, a ≠ .setSignal v) ∧ a ≠ .engPoll := by
  cases a <;> simp [RemoteAct.byStack] at h ⊢

theorem taskMoved_sig (n : RemoteRun) (b : TaskAct) (sg : SigState) :
    (n.taskMoved b sg).sigSent = n.sigSent ∧ ∀ v, n.sig.signal = some v → (n.taskMoved b sg).sig.signal = some v := by
  have h1 : (if b = .recv then (n.step .engPoll).getD n else n).sig = n.sig ∧
      (if b = .recv then (n.step .engPoll).getD n else n).sigSent = n.sigSent := by
    split
    · simp only [RemoteRun.step]
      (repeat' split) <;> exact ⟨rfl, rfl⟩
    · exact ⟨rfl, rfl⟩
  simp only [RemoteRun.taskMoved]
  split
  · refine ⟨h1.2, fun v hv => ?_⟩
    simp only [h1.1, set_signal, hv]; rfl
  · exact ⟨h1.2, fun v hv => by rw [h1.1]; exact hv⟩

theorem shared_at (E : RemoteEngine) (M : Sys) (a : SysAct) (sgs : AMap (Id × StepId) (Nat × Nat × Nat)) (r i n : Nat) :
    callAt { sys := M, calls := E.shared M a, signals := sgs } r i n = callAt E r i n ∨
    ∃ z b sg, callAt E r i n = some z ∧
      callAt { sys := M, calls := E.shared M a, signals := sgs } r i n = some { z with net := z.net.taskMoved b sg } := by
  cases a with
  | task r0 i0 b =>
    cases hj : E.sys.jobTask r0 i0 with
    | none => left; simp only [callAt, RemoteEngine.shared, hj]
    | some t =>
    cases hj' : M.jobTask r0 i0 with
    | none => left; simp only [callAt, RemoteEngine.shared, hj, hj']
    | some t' =>
      simp only [callAt, RemoteEngine.shared, hj, hj']
      split
      · simp only [updCalls]
        split
        · rename_i h
          obtain ⟨rfl, rfl⟩ := h
          rw [List.getElem?_modify]
          by_cases hn : (E.calls r i).length - 1 = n
          · cases hz : (E.calls r i)[n]? with
            | none => left; simp
            | some z =>
              cases z with
              | none => left; simp
              | some z => right; exact ⟨z, b, t'.sig, rfl, by simp [hn]⟩
          · left; simp [hn]
        · exact .inl rfl
      · exact .inl rfl
  | _ => exact .inl rfl

theorem removed_at {E : RemoteEngine} {r0 i0 n0 : Nat} {x : RemoteExec} {m : RemoteRun} (hx : callAt E r0 i0 n0 = some x) (r i n : Nat) :
    callAt (E.moved r0 i0 n0 x m) r i n = if r = r0 ∧ i = i0 ∧ n = n0 then some { x with net := m } else callAt E r i n := by
  have hlt := (List.getElem?_eq_some_iff.1 (callAt_iff.1 hx)).1
  unfold callAt
  simp only [RemoteEngine.moved, updCalls]
  by_cases h : r = r0 ∧ i = i0
  · obtain ⟨rfl, rfl⟩ := h
    simp only [and_self, if_true, List.getElem?_set]
    by_cases hn : n0 = n
    · subst hn; simp [hlt]
    · simp [hn, Ne.symm hn]
  · rw [if_neg h, if_neg (fun e => h ⟨e.1, e.2.1⟩)]

theorem rearrives_at (E : RemoteEngine) (sv : Id) (st : StepId) (v : Signal) (r i n : Nat) :
    callAt (E.signalArrives sv st v) r i n = callAt E r i n ∧ E.signals.get? (sv, st) ≠ some (r, i, n) ∨
    E.signals.get? (sv, st) = some (r, i, n) ∧
      callAt (E.signalArrives sv st v) r i n = (callAt E r i n).map fun x => { x with remote := (x.remote.set v).state } := by
  simp only [RemoteEngine.signalArrives]
  split
  · rename_i r0 i0 n0 hi
    rw [hi]
    by_cases h : r = r0 ∧ i = i0
    · obtain ⟨rfl, rfl⟩ := h
      by_cases hn : n0 = n
      · subst hn
        right
        refine ⟨rfl, ?_⟩
        unfold callAt
        simp only [updCalls, and_self, if_true, List.getElem?_modify]
        cases (E.calls r i)[n0]? with
        | none => rfl
        | some z => cases z <;> rfl
      · left
        refine ⟨?_, by simp [hn]⟩
        unfold callAt
        simp [updCalls, List.getElem?_modify, hn]
    · left
      refine ⟨?_, ?_⟩
      · unfold callAt
        simp only [updCalls]
        rw [if_neg h]
      · intro e
        simp only [Option.some.injEq, Prod.mk.injEq] at e
        exact h ⟨e.1.symm, e.2.1.symm⟩
  · rename_i hn; left; exact ⟨rfl, by rw [hn]; simp⟩

theorem rearrives_same (E : RemoteEngine) (sv : Id) (st : StepId) (v : Signal) {r i n : Nat} {z : RemoteExec}
    (hz : callAt E r i n = some z) : ∃ y, callAt (E.signalArrives sv st v) r i n = some y ∧ SameCall z y := by
  rcases rearrives_at E sv st v r i n with ⟨h, _⟩ | ⟨_, h⟩
  · exact ⟨z, by rw [h, hz], SameCall.refl z⟩
  · refine ⟨{ z with remote := (z.remote.set v).state }, by rw [h, hz]; rfl, ⟨rfl, rfl, fun _ h => h, fun w hw => ?_⟩⟩
    simp [set_signal, hw]

theorem removed_same {E : RemoteEngine} {r0 i0 n0 : Nat} {x : RemoteExec} {m : RemoteRun} {a : RemoteAct} (hx : callAt E r0 i0 n0 = some x)
    (hb : (∀ v, a ≠ .setSignal v) ∧ a ≠ .engPoll) (hstep : x.net.step a = some m) {r i n : Nat} {z : RemoteExec}
    (hz : callAt E r i n = some z) : ∃ y, callAt (E.moved r0 i0 n0 x m) r i n = some y ∧ SameCall z y := by
  rw [removed_at hx]
  split
  · rename_i e
    obtain ⟨rfl, rfl, rfl⟩ := e
    rw [hx, Option.some.injEq] at hz
    subst hz
    refine ⟨_, rfl, rfl, rfl, fun v hv => ?_, fun _ h => h⟩
    rw [(net_step hb hstep).2.2.2.2]; exact hv
  · exact ⟨z, hz, SameCall.refl z⟩

theorem upd_at (E : RemoteEngine) (M : Sys) (r0 i0 : Nat) (o : Option RemoteExec) (r i n : Nat) :
    callAt { E with sys := M, calls := updCalls E.calls r0 i0 fun cs => cs ++ [o] } r i n =
      if r = r0 ∧ i = i0 ∧ n = (E.calls r0 i0).length then o else callAt E r i n := by
  unfold callAt
  simp only [updCalls]
  by_cases h : r = r0 ∧ i = i0
  · obtain ⟨rfl, rfl⟩ := h
    simp only [and_self, if_true, true_and, List.getElem?_append]
    by_cases hn : n < (E.calls r i).length
    · rw [if_pos hn, if_neg (by omega)]
    · rw [if_neg hn]
      by_cases he : n = (E.calls r i).length
      · subst he; simp
      · rw [if_neg he]
        have : 0 < n - (E.calls r i).length := by omega
        obtain ⟨k, hk⟩ := Nat.exists_eq_succ_of_ne_zero (Nat.pos_iff_ne_zero.1 this)
        rw [hk, List.getElem?_eq_none (show (E.calls r i).length ≤ n by omega)]
        simp
  · rw [if_neg h, if_neg (fun e => h ⟨e.1, e.2.1⟩)]

theorem callAt_len {E : RemoteEngine} {r i n : Nat} {x : RemoteExec} (h : callAt E r i n = some x) : n < (E.calls r i).length :=
  (List.getElem?_eq_some_iff.1 (callAt_iff.1 h)).1

/-- What a move that says nothing about signals to a server does to the calls. -/
theorem calls_step {E E' : RemoteEngine} {a : RemoteEngineAct} (hs : E.step a = some E') :
    ∀ r i n z, callAt E r i n = some z → ∃ y, callAt E' r i n = some y ∧ SameCall z y := by
  intro r i n z hz
  cases a with
  | sys a =>
    simp only [RemoteEngine.step] at hs
    split at hs
    · cases hs
    · simp only [Option.map_eq_some_iff] at hs
      obtain ⟨M, hM, rfl⟩ := hs
      rcases shared_at E M a E.signals r i n with h | ⟨w, b, sg, h1, h2⟩
      · exact ⟨z, by rw [h, hz], SameCall.refl z⟩
      · rw [hz, Option.some.injEq] at h1
        subst h1
        exact ⟨_, h2, rfl, rfl, (taskMoved_sig z.net b sg).2, fun _ h => h⟩
  | dispatched r0 i0 sv =>
    simp only [RemoteEngine.step] at hs
    split at hs
    · simp only [Option.map_eq_some_iff] at hs
      obtain ⟨m, hm, rfl⟩ := hs
      refine ⟨z, ?_, SameCall.refl z⟩
      rw [upd_at, if_neg]
      · exact hz
      · rintro ⟨rfl, rfl, rfl⟩
        exact absurd (callAt_len hz) (Nat.lt_irrefl _)
    · cases hs
  | noRunner r0 i0 =>
    simp only [RemoteEngine.step] at hs
    split at hs
    · simp only [Option.map_eq_some_iff] at hs
      obtain ⟨m, hm, rfl⟩ := hs
      refine ⟨z, ?_, SameCall.refl z⟩
      rw [upd_at, if_neg]
      · exact hz
      · rintro ⟨rfl, rfl, rfl⟩
        exact absurd (callAt_len hz) (Nat.lt_irrefl _)
    · cases hs
  | net r0 i0 n0 a =>
    obtain ⟨x, m, hx, hb, hstep, hcase⟩ := renet_step hs
    have hx := callAt_iff.2 hx
    obtain ⟨y, h1, h2⟩ := removed_same hx (byStack_plain hb) hstep hz
    rcases hcase with ⟨_, rfl⟩ | ⟨v, _, _, rfl⟩ | ⟨_, _, _, rfl⟩
    · exact ⟨y, h1, h2⟩
    · obtain ⟨y', g1, g2⟩ := rearrives_same _ x.server x.command.id v h1
      exact ⟨y', g1, h2.trans g2⟩
    · exact ⟨y, h1, h2⟩
  | signalFailed r0 i0 n0 b =>
    obtain ⟨x, m, v, hx, hstep, _, rfl⟩ := refail_step hs
    have hx := callAt_iff.2 hx
    obtain ⟨y, h1, h2⟩ := removed_same hx (by simp) hstep hz
    split
    · obtain ⟨y', g1, g2⟩ := rearrives_same _ x.server x.command.id v h1
      exact ⟨y', g1, h2.trans g2⟩
    · exact ⟨y, h1, h2⟩
  | stepCompleted r0 sv res =>
    simp only [RemoteEngine.step] at hs
    split at hs
    · split at hs <;> cases hs
      exact ⟨z, hz, SameCall.refl z⟩
    · cases hs

/-- Being the only call for a step was true before. -/
theorem onlyCallFor_back {E E' : RemoteEngine} {a : RemoteEngineAct} (hs : E.step a = some E') {r i n : Nat} {id : StepId}
    (ho : OnlyCallFor E' r i n id) : OnlyCallFor E r i n id := by
  refine ⟨fun r' i' n' y hy he => ?_, fun r' ρ o res hr hm => ?_⟩
  · obtain ⟨y', h1, h2⟩ := calls_step hs r' i' n' y hy
    exact ho.1 r' i' n' y' h1 (by rw [h2.command]; exact he)
  · obtain ⟨⟨sa, _, h3⟩, _⟩ := remote_move hs
    obtain ⟨ρ', h1, h2⟩ := sys_trace_runs h3 hr
    exact ho.2 r' ρ' o res h1 (h2.subset hm)

/-- A call is a remote execution. -/
theorem callAt_reach {acts : List RemoteEngineAct} {E : RemoteEngine} (h : RemoteEngineReach acts E) {r i n : Nat} {x : RemoteExec}
    (hx : callAt E r i n = some x) : ∃ na, RemoteReach na x.net ∧ na.filter notEngine = callMoves r i n acts := by
  have hx' := callAt_iff.1 hx
  cases hT : taskAt E.sys r i with
  | none =>
    have := rpair_none h hT
    rw [this] at hx'
    simp at hx'
  | some t => exact (rpair h hT).reach n _ _ (view_get hx')

/-! ## The servers' maps -/

/-- What is known about signals on the servers. -/
structure RESigInv (acts : List RemoteEngineAct) (E : RemoteEngine) : Prop where
  source : ∀ r i n x v, callAt E r i n = some x → x.remote.signal = some v →
    ∃ r' i' n' y, callAt E r' i' n' = some y ∧ y.server = x.server ∧ y.command.id = x.command.id ∧ y.net.sig.signal = some v
  map : ∀ key r i n, E.signals.get? key = some (r, i, n) → ∃ y, callAt E r i n = some y ∧ (y.server, y.command.id) = key
  reg : ∀ r i n x, callAt E r i n = some x → RemoteAct.rpcOk ∈ callMoves r i n acts →
    OnlyCallFor E r i n x.command.id → E.signals.get? (x.server, x.command.id) = some (r, i, n)
  sent : ∀ r i n x v, callAt E r i n = some x → OnlyCallFor E r i n x.command.id → v ∈ x.net.sigSent → x.remote.signal = some v

/-- Nothing about signals changes, except that the engine may set one, and calls may be added. -/
theorem RESigInv.same {acts : List RemoteEngineAct} {E E' : RemoteEngine} {a : RemoteEngineAct} (hr : RemoteEngineReach acts E)
    (h : RESigInv acts E) (hs : E.step a = some E') (hmap : E'.signals = E.signals)
    (hmv : ∀ r i n, RemoteAct.rpcOk ∉ callMoves r i n [a])
    (hback : ∀ r i n y, callAt E' r i n = some y →
      ((E.calls r i).length ≤ n ∧ y.net.sigSent = [] ∧ y.remote.signal = none) ∨
      ∃ z, callAt E r i n = some z ∧ y.net.sigSent = z.net.sigSent ∧ y.remote = z.remote) : RESigInv (acts ++ [a]) E' := by
  have hlater : ∀ r i n, (E.calls r i).length ≤ n → callMoves r i n acts = [] := by
    intro r i n hn
    have hp := (rengineInv_reach hr).pairs r i
    cases hT : taskAt E.sys r i with
    | none => rw [hT] at hp; exact hp.2 n
    | some t => rw [hT] at hp; exact RInv.later hp n (by simpa using hn)
  refine ⟨fun r i n x v hx hv => ?_, fun key r i n hj => ?_, fun r i n x hx hm ho => ?_, fun r i n x v hx ho hv => ?_⟩
  · rcases hback r i n x hx with ⟨_, _, e⟩ | ⟨z, hz, _, e⟩
    · rw [e] at hv; cases hv
    · obtain ⟨x', k1, k2⟩ := calls_step hs r i n z hz
      rw [hx, Option.some.injEq] at k1
      subst k1
      obtain ⟨r', i', n', y, g1, g2, g3, g4⟩ := h.source r i n z v hz (by rw [← e]; exact hv)
      obtain ⟨y', k3, k4⟩ := calls_step hs r' i' n' y g1
      exact ⟨r', i', n', y', k3, by rw [k4.server, k2.server, g2], by rw [k4.command, k2.command, g3], k4.signal v g4⟩
  · rw [hmap] at hj
    obtain ⟨y, g1, g2⟩ := h.map key r i n hj
    obtain ⟨y', k3, k4⟩ := calls_step hs r i n y g1
    exact ⟨y', k3, by rw [k4.server, k4.command, g2]⟩
  · rw [callMoves_snoc, List.mem_append] at hm
    have hm := hm.resolve_right (hmv r i n)
    rcases hback r i n x hx with ⟨e, _, _⟩ | ⟨z, hz, _, _⟩
    · rw [hlater r i n e] at hm; simp at hm
    · obtain ⟨x', k1, k2⟩ := calls_step hs r i n z hz
      rw [hx, Option.some.injEq] at k1
      subst k1
      rw [hmap, k2.server, k2.command]
      rw [k2.command] at ho
      exact h.reg r i n z hz hm (onlyCallFor_back hs ho)
  · rcases hback r i n x hx with ⟨_, e, _⟩ | ⟨z, hz, e1, e2⟩
    · rw [e] at hv; simp at hv
    · obtain ⟨x', k1, k2⟩ := calls_step hs r i n z hz
      rw [hx, Option.some.injEq] at k1
      subst k1
      rw [k2.command] at ho
      exact k2.remote v (h.sent r i n z v hz (onlyCallFor_back hs ho) (by rw [← e1]; exact hv))

/-- A signal arrives at a server. -/
theorem RESigInv.arrive {acts : List RemoteEngineAct} {E : RemoteEngine} {b : RemoteEngineAct}
    {r0 i0 n0 : Nat} {x : RemoteExec} {m : RemoteRun} {a : RemoteAct} {v : Signal} (hr : RemoteEngineReach acts E)
    (h : RESigInv acts E) (hx : callAt E r0 i0 n0 = some x) (hcli : x.net.cli = .signalling v)
    (hs : E.step b = some ((E.moved r0 i0 n0 x m).signalArrives x.server x.command.id v))
    (hmv : ∀ r i n, RemoteAct.rpcOk ∉ callMoves r i n [b]) (hsent : ∀ w ∈ m.sigSent, w ∈ x.net.sigSent ∨ w = v) :
    RESigInv (acts ++ [b]) ((E.moved r0 i0 n0 x m).signalArrives x.server x.command.id v) := by
  obtain ⟨na, hna, hmoves⟩ := callAt_reach hr hx
  have hsig : x.net.sig.signal = some v := ((sendInv_reach hna).busy v hcli).2.1
  have hmaps : ((E.moved r0 i0 n0 x m).signalArrives x.server x.command.id v).signals = E.signals := (arrives_view _ _ _ _).2.1
  have hreg : RemoteAct.rpcOk ∈ callMoves r0 i0 n0 acts := by
    rcases called_reach hna with e | e | e | e
    · rw [hcli] at e; cases e
    · rw [hcli] at e; cases e
    · rw [hcli] at e; cases e
    · rw [← hmoves]; exact List.mem_filter.2 ⟨e, rfl⟩
  have hback : ∀ r i n y, callAt ((E.moved r0 i0 n0 x m).signalArrives x.server x.command.id v) r i n = some y →
      ∃ z, callAt E r i n = some z ∧ ((r = r0 ∧ i = i0 ∧ n = n0) ∧ z = x ∧ y.net = m ∨ y.net = z.net) ∧
        (y.remote = z.remote ∧ E.signals.get? (x.server, x.command.id) ≠ some (r, i, n) ∨
          E.signals.get? (x.server, x.command.id) = some (r, i, n) ∧ y.remote = (z.remote.set v).state) := by
    intro r i n y hy
    rcases rearrives_at (E.moved r0 i0 n0 x m) x.server x.command.id v r i n with ⟨g, g0⟩ | ⟨g1, g⟩
    · have g0' : E.signals.get? (x.server, x.command.id) ≠ some (r, i, n) := g0
      rw [g, removed_at hx] at hy
      split at hy
      · rename_i e; obtain ⟨rfl, rfl, rfl⟩ := e; cases hy; exact ⟨x, hx, .inl ⟨⟨rfl, rfl, rfl⟩, rfl, rfl⟩, .inl ⟨rfl, g0'⟩⟩
      · exact ⟨y, hy, .inr rfl, .inl ⟨rfl, g0'⟩⟩
    · have g1' : E.signals.get? (x.server, x.command.id) = some (r, i, n) := g1
      rw [g, removed_at hx] at hy
      split at hy
      · rename_i e; obtain ⟨rfl, rfl, rfl⟩ := e; cases hy; exact ⟨x, hx, .inl ⟨⟨rfl, rfl, rfl⟩, rfl, rfl⟩, .inr ⟨g1', rfl⟩⟩
      · cases hz : callAt E r i n with
        | none => rw [hz] at hy; cases hy
        | some z =>
          rw [hz] at hy; cases hy
          exact ⟨z, rfl, .inr rfl, .inr ⟨g1', rfl⟩⟩
  refine ⟨fun r i n y w hy hw => ?_, fun key r i n hj => ?_, fun r i n y hy hm ho => ?_, fun r i n y w hy ho hw => ?_⟩
  · obtain ⟨z, hz, _, hrr⟩ := hback r i n y hy
    obtain ⟨y', k1, k2⟩ := calls_step hs r i n z hz
    rw [hy, Option.some.injEq] at k1
    subst k1
    have old : z.remote.signal = some w → ∃ r' i' n' u,
        callAt ((E.moved r0 i0 n0 x m).signalArrives x.server x.command.id v) r' i' n' = some u ∧ u.server = y.server ∧
        u.command.id = y.command.id ∧ u.net.sig.signal = some w := by
      intro hzw
      obtain ⟨r', i', n', u, g1, g2, g3, g4⟩ := h.source r i n z w hz hzw
      obtain ⟨u', k3, k4⟩ := calls_step hs r' i' n' u g1
      exact ⟨r', i', n', u', k3, by rw [k4.server, k2.server, g2], by rw [k4.command, k2.command, g3], k4.signal w g4⟩
    rcases hrr with ⟨hrr, _⟩ | ⟨hr1, hrr⟩
    · exact old (by rw [← hrr]; exact hw)
    · rw [hrr, set_signal] at hw
      cases hzr : z.remote.signal with
      | some u => rw [hzr] at hw; exact old (by rw [hzr]; exact hw)
      | none =>
        rw [hzr] at hw
        have hvw : v = w := by simpa using hw
        subst hvw
        obtain ⟨x', k3, k4⟩ := calls_step hs r0 i0 n0 x hx
        obtain ⟨z', g1, g2⟩ := h.map _ r i n hr1
        rw [hz, Option.some.injEq] at g1
        subst g1
        simp only [Prod.mk.injEq] at g2
        exact ⟨r0, i0, n0, x', k3, by rw [k4.server, k2.server, g2.1], by rw [k4.command, k2.command, g2.2], k4.signal v hsig⟩
  · rw [hmaps] at hj
    obtain ⟨y, g1, g2⟩ := h.map key r i n hj
    obtain ⟨y', k3, k4⟩ := calls_step hs r i n y g1
    exact ⟨y', k3, by rw [k4.server, k4.command, g2]⟩
  · rw [callMoves_snoc, List.mem_append] at hm
    rw [hmaps]
    obtain ⟨z, hz, _, _⟩ := hback r i n y hy
    obtain ⟨y', k1, k2⟩ := calls_step hs r i n z hz
    rw [hy, Option.some.injEq] at k1
    subst k1
    rw [k2.server, k2.command]
    rw [k2.command] at ho
    exact h.reg r i n z hz (hm.resolve_right (hmv r i n)) (onlyCallFor_back hs ho)
  · obtain ⟨z, hz, hn, hrr⟩ := hback r i n y hy
    obtain ⟨y', k1, k2⟩ := calls_step hs r i n z hz
    rw [hy, Option.some.injEq] at k1
    subst k1
    rw [k2.command] at ho
    have ho' := onlyCallFor_back hs ho
    rcases hn with ⟨⟨rfl, rfl, rfl⟩, rfl, hn⟩ | hn
    · rw [hn] at hw
      rcases hsent w hw with hw | rfl
      · exact k2.remote w (h.sent r i n z w hz ho' hw)
      · rcases hrr with ⟨_, hrr⟩ | ⟨_, hrr⟩
        · exact absurd (h.reg r i n z hz hreg ho') hrr
        · rw [hrr, set_signal]
          cases hzr : z.remote.signal with
          | none => rfl
          | some u =>
            obtain ⟨r', i', n', y2, g1, g2, g3, g4⟩ := h.source r i n z u hz hzr
            obtain ⟨rfl, rfl, rfl⟩ := ho'.1 r' i' n' y2 g1 g3
            rw [hz, Option.some.injEq] at g1
            subst g1
            rw [hsig] at g4
            simpa using g4.symm
    · rw [hn] at hw
      exact k2.remote w (h.sent r i n z w hz ho' hw)

theorem callMoves_net {r i n r0 i0 n0 : Nat} {a : RemoteAct} (ha : a ≠ .rpcOk) : RemoteAct.rpcOk ∉ callMoves r i n [.net r0 i0 n0 a] := by
  by_cases h : r0 = r ∧ i0 = i ∧ n0 = n
  · simp [callMoves, h]; exact Ne.symm ha
  · simp [callMoves, h]

theorem reSigInv_step {acts : List RemoteEngineAct} {E E' : RemoteEngine} {a : RemoteEngineAct} (hr : RemoteEngineReach acts E)
    (h : RESigInv acts E) (hs : E.step a = some E') : RESigInv (acts ++ [a]) E' := by
  cases a with
  | sys a =>
    have hs' := hs
    simp only [RemoteEngine.step] at hs'
    split at hs'
    · cases hs'
    · simp only [Option.map_eq_some_iff] at hs'
      obtain ⟨M, hM, rfl⟩ := hs'
      refine RESigInv.same hr h hs rfl (fun r i n => by simp [callMoves]) fun r i n y hy => .inr ?_
      rcases shared_at E M a E.signals r i n with g | ⟨w, b, sg, g1, g2⟩
      · exact ⟨y, by rw [← g]; exact hy, rfl, rfl⟩
      · have hy' := hy
        rw [g2, Option.some.injEq] at hy'
        subst hy'
        exact ⟨w, g1, (taskMoved_sig w.net b sg).1, rfl⟩
  | dispatched r0 i0 sv =>
    have hs' := hs
    simp only [RemoteEngine.step] at hs'
    split at hs'
    · simp only [Option.map_eq_some_iff] at hs'
      obtain ⟨M, hM, rfl⟩ := hs'
      refine RESigInv.same hr h hs rfl (fun r i n => by simp [callMoves]) fun r i n y hy => ?_
      rw [upd_at] at hy
      split at hy
      · rename_i e
        obtain ⟨rfl, rfl, rfl⟩ := e
        cases hy
        exact .inl ⟨Nat.le_refl _, rfl, rfl⟩
      · exact .inr ⟨y, hy, rfl, rfl⟩
    · cases hs'
  | noRunner r0 i0 =>
    have hs' := hs
    simp only [RemoteEngine.step] at hs'
    split at hs'
    · simp only [Option.map_eq_some_iff] at hs'
      obtain ⟨M, hM, rfl⟩ := hs'
      refine RESigInv.same hr h hs rfl (fun r i n => by simp [callMoves]) fun r i n y hy => ?_
      rw [upd_at] at hy
      split at hy
      · cases hy
      · exact .inr ⟨y, hy, rfl, rfl⟩
    · cases hs'
  | stepCompleted r0 sv res =>
    have hs' := hs
    simp only [RemoteEngine.step] at hs'
    split at hs'
    · rename_i ρ hρ
      split at hs' <;> cases hs'
      rename_i hany
      obtain ⟨e, he1, he2⟩ := List.any_eq_true.1 hany
      simp only [decide_eq_true_eq] at he2
      refine ⟨h.source, fun key r i n hj => ?_, fun r i n x hx hm ho => ?_, h.sent⟩
      · simp only at hj
        rw [AMap.get?_erase] at hj
        split at hj
        · cases hj
        · exact h.map key r i n hj
      · simp only [AMap.get?_erase]
        have hm' : RemoteAct.rpcOk ∈ callMoves r i n acts := by simpa [callMoves_snoc, callMoves] using hm
        have := h.reg r i n x hx hm' ho
        rw [if_neg]
        · exact this
        · intro e'
          simp only [Prod.mk.injEq] at e'
          refine ho.2 r0 ρ e.1 res hρ ?_ (by first | exact e'.2.symm | exact e'.2)
          rw [← he2]; exact he1
    · cases hs'
  | signalFailed r0 i0 n0 b =>
    have hs' := hs
    obtain ⟨x, m, v, hx, hstep, hcli, e⟩ := refail_step hs'
    have hx := callAt_iff.2 hx
    have hmv : ∀ r i n, RemoteAct.rpcOk ∉ callMoves r i n [.signalFailed r0 i0 n0 b] := by
      intro r i n
      by_cases h : r0 = r ∧ i0 = i ∧ n0 = n <;> simp [callMoves, h]
    have hsent := sigSent_step (by simp) hstep
    cases b with
    | true =>
      simp only [if_true] at e
      subst e
      exact RESigInv.arrive (a := .sigErr) hr h hx hcli hs hmv fun w hw => .inl (by rw [← hsent]; exact hw)
    | false =>
      simp only [Bool.false_eq_true, if_false] at e
      subst e
      refine RESigInv.same hr h hs rfl hmv fun r i n y hy => .inr ?_
      rw [removed_at hx] at hy
      split at hy
      · rename_i e; obtain ⟨rfl, rfl, rfl⟩ := e; cases hy; exact ⟨x, hx, hsent, rfl⟩
      · exact ⟨y, hy, rfl, rfl⟩
  | net r0 i0 n0 a =>
    have hs' := hs
    obtain ⟨x, m, hx, hbs, hstep, hcase⟩ := renet_step hs'
    have hx := callAt_iff.2 hx
    have hb := byStack_plain hbs
    rcases hcase with ⟨hact, rfl⟩ | ⟨v, rfl, hcli, rfl⟩ | ⟨h1, h2, h3, rfl⟩
    · have hsent := sigSent_step (by rcases hact with rfl | ⟨e, rfl⟩ <;> simp) hstep
      have hback : ∀ r i n y, callAt (E.moved r0 i0 n0 x m) r i n = some y →
          ∃ z, callAt E r i n = some z ∧ y.server = z.server ∧ y.command = z.command ∧ y.net.sigSent = z.net.sigSent ∧ y.remote = z.remote := by
        intro r i n y hy
        rw [removed_at hx] at hy
        split at hy
        · rename_i e; obtain ⟨rfl, rfl, rfl⟩ := e; cases hy; exact ⟨x, hx, rfl, rfl, hsent, rfl⟩
        · exact ⟨y, hy, rfl, rfl, rfl, rfl⟩
      have hi' : callAt (E.moved r0 i0 n0 x m) r0 i0 n0 = some { x with net := m } := by rw [removed_at hx, if_pos ⟨rfl, rfl, rfl⟩]
      refine ⟨fun r i n y w hy hw => ?_, fun key r i n hj => ?_, fun r i n y hy hm ho => ?_, fun r i n y w hy ho hw => ?_⟩
      · obtain ⟨z, hz, e1, e2, _, e4⟩ := hback r i n y hy
        obtain ⟨r', i', n', u, g1, g2, g3, g4⟩ := h.source r i n z w hz (by rw [← e4]; exact hw)
        obtain ⟨u', k3, k4⟩ := calls_step hs r' i' n' u g1
        exact ⟨r', i', n', u', k3, by rw [k4.server, e1, g2], by rw [k4.command, e2, g3], k4.signal w g4⟩
      · simp only [AMap.get?_insert] at hj
        split at hj
        · rename_i e
          cases hj
          exact ⟨_, hi', e⟩
        · obtain ⟨y, g1, g2⟩ := h.map key r i n hj
          obtain ⟨y', k3, k4⟩ := calls_step hs r i n y g1
          exact ⟨y', k3, by rw [k4.server, k4.command, g2]⟩
      · obtain ⟨z, hz, e1, e2, _, _⟩ := hback r i n y hy
        simp only [AMap.get?_insert]
        split
        · rename_i e
          simp only [Prod.mk.injEq] at e
          obtain ⟨rfl, rfl, rfl⟩ := ho.1 r0 i0 n0 { x with net := m } hi' e.2
          rfl
        · rename_i e
          have hji : ¬ (r0 = r ∧ i0 = i ∧ n0 = n) := by
            rintro ⟨rfl, rfl, rfl⟩
            rw [hx, Option.some.injEq] at hz
            subst hz
            exact e (by rw [e1, e2])
          have hm' : RemoteAct.rpcOk ∈ callMoves r i n acts := by
            rw [callMoves_snoc] at hm
            simpa [callMoves, hji] using hm
          rw [e1, e2]
          exact h.reg r i n z hz hm' (onlyCallFor_back hs (by rw [← e2]; exact ho))
      · obtain ⟨z, hz, e1, e2, e3, e4⟩ := hback r i n y hy
        rw [e4]
        exact h.sent r i n z w hz (onlyCallFor_back hs (by rw [← e2]; exact ho)) (by rw [← e3]; exact hw)
    · refine RESigInv.arrive (a := .sigOk) hr h hx hcli hs (fun r i n => callMoves_net (by simp)) fun w hw => ?_
      simp only [RemoteRun.step, hcli, Option.some.injEq] at hstep
      subst hstep
      simpa using hw
    · have hsent := sigSent_step h3 hstep
      refine RESigInv.same hr h hs rfl (fun r i n => callMoves_net h1) fun r i n y hy => .inr ?_
      rw [removed_at hx] at hy
      split at hy
      · rename_i e; obtain ⟨rfl, rfl, rfl⟩ := e; cases hy; exact ⟨x, hx, hsent, rfl⟩
      · exact ⟨y, hy, rfl, rfl⟩

theorem reSigInv_reach {acts : List RemoteEngineAct} {E : RemoteEngine} (h : RemoteEngineReach acts E) : RESigInv acts E := by
  refine runs_induct (P := fun acts E => RESigInv acts E) ⟨?_, ?_, ?_, ?_⟩ (fun acts a E E' hr ih hs => reSigInv_step hr ih hs) h
  all_goals simp [RemoteEngine.initial, AMap.get?, callAt]

/-! ## Why a step was told to stop -/

/-- Who is told to stop because of a cancellation belongs to a job somebody cancelled. -/
theorem rasked_reach {acts : List RemoteEngineAct} {E : RemoteEngine} (h : RemoteEngineReach acts E) :
    ∀ (r i n : Nat) (c : Command) (m : RemoteRun), ((E.calls r i).map callView)[n]? = some (some (c, m)) →
      m.sig.signal = some .cancel → (c.id.jobId, true) ∈ E.sys.answers := by
  refine runs_induct (P := fun _ E => ∀ (r i n : Nat) (c : Command) (m : RemoteRun), ((E.calls r i).map callView)[n]? = some (some (c, m)) →
      m.sig.signal = some .cancel → (c.id.jobId, true) ∈ E.sys.answers) ?_ ?_ h
  · intro r i n c m hl
    simp [RemoteEngine.initial] at hl
  · intro acts a E E' hr ih hs r i n c m hl hsig
    obtain ⟨sa', hsa', _⟩ := (rengineInv_step (rengineInv_reach hr) hs).sys
    obtain ⟨⟨sa, _, h3⟩, h4⟩ := remote_move hs
    have hmono : ∀ x, x ∈ E.sys.answers → x ∈ E'.sys.answers := fun x hx => answers_runs h3 hx
    obtain ⟨lab, _, hm⟩ := h4 r i
    have hih := ih r i
    have hp : ∀ t, taskAt E.sys r i = some t → RInv (fun n => callMoves r i n acts) t ((E.calls r i).map callView) := fun t => rpair hr
    have h82 := fun t' ht' st hst hc => C82_only_the_named_job sa' E'.sys hsa' r i t' ht' st hst hc
    generalize (E.calls r i).map callView = vs at hm hih hp
    generalize (E'.calls r i).map callView = vs' at hm hl
    generalize taskAt E.sys r i = o at hm hp
    generalize taskAt E'.sys r i = o' at hm h82
    cases hm with
    | same => exact hmono _ (hih n c m hl hsig)
    | born k j => exact hmono _ (hih n c m hl hsig)
    | eng g g' ρ ρ' now _ _ b t t' _ hb ht hss ht' =>
      have hp := hp t rfl
      split at hl
      · rename_i hrd
        rcases modify_get hl with hl | ⟨e, y, hy, he⟩
        · exact hmono _ (hih n c m hl hsig)
        · obtain ⟨st, D, q, H, a1, rfl, a3, a4, a5, a6⟩ := hp.link hrd
          have hn : n = D.length := by simpa using e.symm
          subst hn
          simp only [List.getElem?_concat_length, Option.some.injEq] at hy
          subst hy
          cases q with
          | none => cases he
          | some y =>
            simp only [Option.map_some, Option.some.injEq, Prod.mk.injEq] at he
            obtain ⟨b1, b2, b3, b4, b5, b6⟩ := a3
            obtain ⟨hmv, _⟩ := task_move hp.form hb ht hss ht'
            cases hmv with
            | idle h0 h1 hr' he' hbn => exact absurd h0 (reading_step_some hrd)
            | call s t0 ref hpc ht1 => rw [hpc] at hrd; cases hrd
            | read h0 h1 hst hr' hst' hsg he' hbn =>
              have hk := taskMoved_signal (b := b) b6 hsg
              rw [← he.2] at hk
              have := h82 t' rfl st (by rw [hst]; exact a1) (by rw [← hk]; exact hsig)
              rw [he.1, b1]; exact this
            | item s t0 d ref x hpc hx ht1 hbr =>
              have hk := taskMoved_signal (b := b) (sg' := t'.sig) b6 (fun v hv => by rw [ht1]; exact hv)
              rw [← he.2] at hk
              have hst : st = s := by rw [hpc] at a1; cases a1; rfl
              have := h82 t' rfl st (by rw [ht1, hst]; rfl) (by rw [← hk]; exact hsig)
              rw [he.1, b1]; exact this
            | done s t0 d ref x now' hpc hx hidx ht1 hbr =>
              have hk := taskMoved_signal (b := b) (sg' := t'.sig) b6 (fun v hv => by rw [ht1]; exact hv)
              rw [← he.2, hsig] at hk
              have : t'.sig = t.sig := by rw [ht1]; rfl
              rw [this, ← b6] at hk
              have := hih D.length y.1 y.2 (by simp) hk.symm
              rw [he.1]; exact hmono _ this
      · exact hmono _ (hih n c m hl hsig)
    | dispatched t _ st t0 ref hpc =>
      rcases snoc_get hl with hl | ⟨_, e⟩
      · exact hmono _ (hih n c m hl hsig)
      · cases e; cases hsig
    | refused t _ st t0 ref hpc s hss =>
      rcases snoc_get hl with hl | ⟨_, e⟩
      · exact hmono _ (hih n c m hl hsig)
      · cases e
    | other _ _ n0 b q k k' hget hb hss hno =>
      rcases set_get hl with ⟨rfl, e, _⟩ | ⟨_, hl⟩
      · cases e
        exact hmono _ (hih n0 c k hget (by rw [← (net_step hb hss).2.2.2.2]; exact hsig))
      · exact hmono _ (hih n c m hl hsig)
    | wrote t _ n0 b q k k' hget hb hss hrr hn =>
      rcases set_get hl with ⟨rfl, e, _⟩ | ⟨_, hl⟩
      · cases e
        exact hmono _ (hih n0 c k hget (by rw [← (net_step hb hss).2.2.2.2]; exact hsig))
      · exact hmono _ (hih n c m hl hsig)

end AstroRun
