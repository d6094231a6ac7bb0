import Verif.Lemmas.RemoteEngine
import Verif.Lemmas.LocalEngineMore

/-! # Lemmas: an engine on the remote runner, what holds at all times -/

namespace AstroRun
open Spec

/-! ## One call -/

/-- What was read of a stream. -/
theorem got_eq {na : List RemoteAct} {m : RemoteRun} (h : RemoteReach na m) : m.engineGot = m.outer.logs.take m.outer.index :=
  (remote_reach h).readOut.eq

theorem taskMoved_spec {n : RemoteRun} {na : List RemoteAct} (h : RemoteReach na n) (b : TaskAct) (sg : SigState) :
    ∃ na', RemoteReach na' (n.taskMoved b sg) ∧ na'.filter notEngine = na.filter notEngine := by
  have h1 : ∃ na', RemoteReach na' (if b = .recv then (n.step .engPoll).getD n else n) ∧
      na'.filter notEngine = na.filter notEngine := by
    split
    · cases hs : n.step .engPoll with
      | none => exact ⟨na, by simpa using h, rfl⟩
      | some n' => exact ⟨na ++ [.engPoll], by simpa using remoteReach_snoc h hs, by simp [notEngine]⟩
    · exact ⟨na, h, rfl⟩
  obtain ⟨na1, h2, h3⟩ := h1
  simp only [RemoteRun.taskMoved]
  split
  · rename_i v hv
    exact ⟨na1 ++ [.setSignal v], remoteReach_snoc h2 rfl, by simp [notEngine, h3]⟩
  · exact ⟨na1, h2, h3⟩

theorem taskMoved_other {n : RemoteRun} {b : TaskAct} {sg : SigState} (hb : b ≠ .recv) :
    (n.taskMoved b sg).outer = n.outer ∧ (n.taskMoved b sg).engineDone = n.engineDone ∧ (n.taskMoved b sg).engineGot = n.engineGot := by
  simp only [RemoteRun.taskMoved, if_neg hb]
  split <;> exact ⟨rfl, rfl, rfl⟩

theorem taskMoved_recv {n n' : RemoteRun} {sg : SigState} (h : n.step .engPoll = some n') :
    (n.taskMoved .recv sg).outer = n'.outer ∧ (n.taskMoved .recv sg).engineDone = n'.engineDone ∧
    (n.taskMoved .recv sg).engineGot = n'.engineGot := by
  simp only [RemoteRun.taskMoved, if_true, h, Option.getD_some]
  split <;> exact ⟨rfl, rfl, rfl⟩

theorem taskMoved_signal {n : RemoteRun} {b : TaskAct} {sg sg' : SigState} (h : n.sig.signal = sg.signal)
    (hk : ∀ v, sg.signal = some v → sg'.signal = some v) : (n.taskMoved b sg').sig.signal = sg'.signal := by
  have h1 : (if b = .recv then (n.step .engPoll).getD n else n).sig = n.sig := by
    split
    · simp only [RemoteRun.step]
      (repeat' split) <;> rfl
    · rfl
  simp only [RemoteRun.taskMoved]
  split
  · rename_i v hv
    simp only [h1, set_signal, h, hv]
    cases hm : sg.signal with
    | none => rfl
    | some w => rw [hk w hm] at hv; exact hv
  · rename_i hv
    rw [h1, h]
    cases hm : sg.signal with
    | none => exact hv.symm
    | some w => rw [hk w hm] at hv; cases hv

/-! ## Calls of steps that have ended -/

/-- Steps that have ended: what was reported of them, the calls that executed them and their results. -/
structure REnded (H : List (Command × List Log)) (D : List RCall) (R : List StepRunResult) : Prop where
  reported : H.length = D.length
  results : R.length = D.length
  each : ∀ (n : Nat) (c : Command) (m : RemoteRun), D[n]? = some (some (c, m)) → ∃ (st : Step) (x : RunResult) (r : StepRunResult),
    H[n]? = some (st.toCommand, m.engineGot) ∧ R[n]? = some r ∧ c = st.toCommand ∧ m.engineDone = true ∧ m.outer.result = some x ∧
    r.id = st.id ∧ Reports x r
  refused : ∀ (n : Nat), D[n]? = some none → ∃ (st : Step) (r : StepRunResult),
    H[n]? = some (st.toCommand, [Log.ofError "No runner available"]) ∧ R[n]? = some r ∧ r.id = st.id ∧ Reports (.failed 1) r

theorem REnded.nil : REnded [] [] [] := ⟨rfl, rfl, fun n c m h => by simp at h, fun n h => by simp at h⟩

theorem snoc_get {α : Type} {D : List α} {x y : α} {n : Nat} (h : (D ++ [x])[n]? = some y) : D[n]? = some y ∨ n = D.length ∧ y = x := by
  rw [List.getElem?_append] at h
  split at h
  · exact .inl h
  · right
    cases hk : n - D.length with
    | zero => simp only [hk, List.getElem?_cons_zero, Option.some.injEq] at h; exact ⟨by omega, h.symm⟩
    | succ m => simp [hk] at h

theorem REnded.snoc {H : List (Command × List Log)} {D : List RCall} {R : List StepRunResult}
    (h : REnded H D R) {o : RCall} {hh : Command × List Log} {r : StepRunResult}
    (h1 : ∀ c m, o = some (c, m) → ∃ (st : Step) (x : RunResult), hh = (st.toCommand, m.engineGot) ∧ c = st.toCommand ∧
      m.engineDone = true ∧ m.outer.result = some x ∧ r.id = st.id ∧ Reports x r)
    (h2 : o = none → ∃ st : Step, hh = (st.toCommand, [Log.ofError "No runner available"]) ∧ r.id = st.id ∧ Reports (.failed 1) r) :
    REnded (H ++ [hh]) (D ++ [o]) (R ++ [r]) := by
  have e1 := h.reported
  have e2 := h.results
  refine ⟨by simp [e1], by simp [e2], fun n c m hn => ?_, fun n hn => ?_⟩
  · rcases snoc_get hn with hn | ⟨rfl, e⟩
    · have hlt := (List.getElem?_eq_some_iff.1 hn).1
      obtain ⟨st, x, r', a1, a2, a3⟩ := h.each n c m hn
      exact ⟨st, x, r', by rw [List.getElem?_append_left (by omega)]; exact a1,
        by rw [List.getElem?_append_left (by omega)]; exact a2, a3⟩
    · obtain ⟨st, x, rfl, b2⟩ := h1 c m e.symm
      exact ⟨st, x, r, by rw [← e1]; simp, by rw [← e2]; simp, b2⟩
  · rcases snoc_get hn with hn | ⟨rfl, e⟩
    · have hlt := (List.getElem?_eq_some_iff.1 hn).1
      obtain ⟨st, r', a1, a2, a3⟩ := h.refused n hn
      exact ⟨st, r', by rw [List.getElem?_append_left (by omega)]; exact a1,
        by rw [List.getElem?_append_left (by omega)]; exact a2, a3⟩
    · obtain ⟨st, rfl, b2⟩ := h2 e.symm
      exact ⟨st, r, by rw [← e1]; simp, by rw [← e2]; simp, b2⟩

theorem REnded.set {H : List (Command × List Log)} {D : List RCall} {R : List StepRunResult}
    (h : REnded H D R) {n : Nat} {c : Command} {m m' : RemoteRun} {a : RemoteAct} (hget : D[n]? = some (some (c, m)))
    (ha : (∀ v, a ≠ .setSignal v) ∧ a ≠ .engPoll) (hs : m.step a = some m') : REnded H (D.set n (some (c, m'))) R := by
  obtain ⟨hg, _, hd, hgot, _⟩ := net_step ha hs
  refine ⟨by simp [h.reported], by simp [h.results], fun k q y hk => ?_, fun k hk => ?_⟩
  · rcases set_get hk with ⟨rfl, e, _⟩ | ⟨_, hk⟩
    · cases e
      obtain ⟨st, x, r, a1, a2, a3, a4, a5, a6⟩ := h.each n c m hget
      exact ⟨st, x, r, by rw [hgot]; exact a1, a2, a3, by rw [hd]; exact a4, hg.result x a5, a6⟩
    · exact h.each k q y hk
  · rcases set_get hk with ⟨_, e, _⟩ | ⟨_, hk⟩
    · cases e
    · exact h.refused k hk

/-! ## A job task and its calls -/

/-- The call a job task reads from. -/
def Linked (t : SysTask) (st : Step) : RCall → Prop
  | some (c, m) => c = st.toCommand ∧ m.outer.logs = t.stream.logs ∧ m.outer.result = t.stream.result ∧ m.outer.index = t.stream.index ∧
    m.engineDone = false ∧ m.sig.signal = t.sig.signal
  | none => t.stream.logs = [Log.ofError "No runner available"] ∧ t.stream.result = some (.failed 1)

/-- A job task and its calls, in which `moves` were made. -/
structure RInv (moves : Nat → List RemoteAct) (t : SysTask) (vs : List RCall) : Prop where
  reach : ∀ (n : Nat) (c : Command) (m : RemoteRun), vs[n]? = some (some (c, m)) → ∃ na, RemoteReach na m ∧ na.filter notEngine = moves n
  later : ∀ n, vs.length ≤ n → moves n = []
  form : TaskForm t
  idle : stepOf t.pc = none → REnded (handedOver (t.evs ++ t.pc.pend)) vs (executedSteps t.results)
  calling : ∀ st t0 ref, t.pc = .calling st t0 ref → t.stream = {} ∧ t.sig = {} ∧
    ∃ H, handedOver (t.evs ++ t.pc.pend) = H ++ [(st.toCommand, [])] ∧ REnded H vs (executedSteps t.results)
  link : t.pc.reading = true → ∃ st D o H, stepOf t.pc = some st ∧ vs = D ++ [o] ∧ Linked t st o ∧
    t.stream.index ≤ t.stream.logs.length ∧
    handedOver (t.evs ++ t.pc.pend) = H ++ [(st.toCommand, t.stream.logs.take t.stream.index)] ∧
    REnded H D (executedSteps t.results)

theorem RInv.fresh (k : Id) (j : Job) : RInv (fun _ => []) { key := k, job := j } [] :=
  ⟨fun n c m h => by simp at h, fun _ _ => rfl, .fresh k j, fun _ => REnded.nil, fun st t0 ref h => by simp at h,
    fun h => by simp [SysPc.reading] at h⟩

theorem RInv.of_moves {f g : Nat → List RemoteAct} {t : SysTask} {vs : List RCall} (h : RInv f t vs) (e : ∀ n, f n = g n) : RInv g t vs := by
  have : f = g := funext e
  subst this; exact h

/-- Reachability of all calls after the engine has moved. -/
theorem taskMoved_all {moves : Nat → List RemoteAct} {vs : List RCall} {b : TaskAct} {sg : SigState}
    (h : ∀ (n : Nat) (c : Command) (m : RemoteRun), vs[n]? = some (some (c, m)) → ∃ na, RemoteReach na m ∧ na.filter notEngine = moves n) :
    ∀ (n : Nat) (c : Command) (m : RemoteRun),
      (vs.modify (vs.length - 1) (Option.map fun y => (y.1, y.2.taskMoved b sg)))[n]? = some (some (c, m)) →
      ∃ na, RemoteReach na m ∧ na.filter notEngine = moves n := by
  intro n c m hn
  rcases modify_get hn with hn | ⟨_, y, hy, e⟩
  · exact h n c m hn
  · cases y with
    | none => cases e
    | some y =>
      simp only [Option.map_some, Option.some.injEq, Prod.mk.injEq] at e
      obtain ⟨na, h1, h2⟩ := h n y.1 y.2 hy
      obtain ⟨na', h3, h4⟩ := taskMoved_spec h1 b sg
      exact ⟨na', by rw [e.2]; exact h3, by rw [h4, h2]⟩

theorem reading_step_some {pc : SysPc} (h : pc.reading = true) : stepOf pc ≠ none := by
  obtain ⟨st, e⟩ := reading_stepOf h
  rw [e]; simp

/-- Moves of the job task. -/
theorem RInv.eng_move {moves : Nat → List RemoteAct} {t t' : SysTask} {vs : List RCall} (h : RInv moves t vs)
    {g g' : SigMgr} {ρ ρ' : SysRun} {now : Time} {i r : Nat} {b : TaskAct} (hb : (SysAct.task r i b).byRunner = false)
    (ht : ρ.tasks[i]? = some t) (hs : Sys.taskStep g ρ now i t b = some (g', ρ')) (ht' : ρ'.tasks[i]? = some t') :
    RInv moves t' (if t.pc.reading then vs.modify (vs.length - 1) (Option.map fun y => (y.1, y.2.taskMoved b t'.sig)) else vs) := by
  obtain ⟨hm, hf'⟩ := task_move h.form hb ht hs ht'
  have hlater : ∀ n, (vs.modify (vs.length - 1) (Option.map fun y => (y.1, y.2.taskMoved b t'.sig))).length ≤ n → moves n = [] := by
    intro n hn
    rw [List.length_modify] at hn
    exact h.later n hn
  cases hm with
  | idle h0 h1 hr he _ =>
    have e1 : t.pc.reading = false := by
      cases hh : t.pc.reading with
      | false => rfl
      | true => exact absurd h0 (reading_step_some hh)
    rw [e1]
    simp only [Bool.false_eq_true, if_false]
    obtain ⟨es, e2, e3⟩ := he
    refine ⟨h.reach, h.later, hf', fun _ => ?_, fun st t0 ref e => ?_, fun e => absurd h1 (reading_step_some e)⟩
    · rw [hr, e2, handedOver_other e3]; exact h.idle h0
    · rw [e] at h1; cases h1
  | call s t0 ref hpc ht1 =>
    subst ht1
    have e1 : t.pc.reading = false := by rw [hpc]; rfl
    rw [e1]
    simp only [Bool.false_eq_true, if_false]
    have hI := h.idle (by rw [hpc]; rfl)
    rw [hpc] at hI
    simp only [SysPc.pend, List.append_nil] at hI
    refine ⟨h.reach, h.later, hf', fun e => by simp [stepOf] at e, fun st t0' ref' e => ?_, fun e => by simp [SysPc.reading] at e⟩
    cases e
    refine ⟨rfl, rfl, _, ?_, hI⟩
    simp only [SysPc.pend, List.append_nil]
    rw [handedOver_append]
    rfl
  | read h0 h1 hst hr hstream hsig he hbn =>
    rw [h0]
    simp only [if_true]
    obtain ⟨st, D, o, H, a1, rfl, a3, a4, a5, a6⟩ := h.link h0
    refine ⟨taskMoved_all h.reach, hlater, hf', fun e => absurd e (reading_step_some h1), fun st t0 ref e => ?_, fun _ => ?_⟩
    · rw [e] at h1; cases h1
    · rw [modify_concat]
      refine ⟨st, D, _, H, by rw [hst]; exact a1, rfl, ?_, by rw [hstream]; exact a4, by rw [he, hstream]; exact a5, by rw [hr]; exact a6⟩
      cases o with
      | none => simpa only [Option.map_none, Linked, hstream] using a3
      | some y =>
        obtain ⟨b1, b2, b3, b4, b5, b6⟩ := a3
        obtain ⟨o1, o2, _⟩ := taskMoved_other (n := y.2) (sg := t'.sig) hbn
        exact ⟨b1, by rw [o1, hstream]; exact b2, by rw [o1, hstream]; exact b3, by rw [o1, hstream]; exact b4, by rw [o2]; exact b5,
          taskMoved_signal b6 hsig⟩
  | item s t0 d ref x hpc hx ht1 hbr =>
    have h0 : t.pc.reading = true := by rw [hpc]; rfl
    rw [h0]
    simp only [if_true]
    subst hbr
    obtain ⟨st, D, o, H, a1, rfl, a3, a4, a5, a6⟩ := h.link h0
    have hst : st = s := by rw [hpc] at a1; cases a1; rfl
    subst hst
    have hlt := List.getElem?_eq_some_iff.1 hx
    refine ⟨taskMoved_all h.reach, hlater, hf', fun e => ?_, fun st t0 ref e => ?_, fun _ => ?_⟩
    · subst ht1; simp [SysTask.emitThen, stepOf] at e
    · subst ht1; simp [SysTask.emitThen] at e
    · rw [modify_concat]
      refine ⟨st, D, _, H, by rw [ht1]; rfl, rfl, ?_, by rw [ht1]; exact hlt.1, ?_, by rw [ht1]; exact a6⟩
      · cases o with
        | none => subst ht1; exact a3
        | some y =>
          obtain ⟨b1, b2, b3, b4, b5, b6⟩ := a3
          have hp : y.2.step .engPoll = some { y.2 with
              outer := { y.2.outer with waker := some 1, index := y.2.outer.index + 1 }, engineGot := y.2.engineGot ++ [x] } := by
            simp only [RemoteRun.step, b5, StreamState.poll, b2, b3, b4, hx]
            rfl
          obtain ⟨o1, o2, _⟩ := taskMoved_recv (sg := t'.sig) hp
          refine ⟨b1, ?_, ?_, ?_, by rw [o2]; exact b5, taskMoved_signal b6 (fun v hv => by rw [ht1]; exact hv)⟩
          · rw [o1, ht1]; exact b2
          · rw [o1, ht1]; exact b3
          · rw [o1, ht1]; simp only [b4]
      · have : t'.evs ++ t'.pc.pend = t.evs ++ t.pc.pend ++ [.log st.id x] := by rw [ht1]; simp [hpc, SysPc.pend, SysTask.emitThen]
        rw [this, handedOver_log a5]
        congr 3
        rw [ht1]
        obtain ⟨hlt, hx'⟩ := hlt
        simp only [List.take_succ_eq_append_getElem hlt, hx']
  | done s t0 d ref x now' hpc hx hidx ht1 hbr =>
    have h0 : t.pc.reading = true := by rw [hpc]; rfl
    rw [h0]
    simp only [if_true]
    subst hbr
    obtain ⟨st, D, o, H, a1, rfl, a3, a4, a5, a6⟩ := h.link h0
    have hst : st = s := by rw [hpc] at a1; cases a1; rfl
    subst hst
    obtain ⟨r1, r2⟩ := stepResult_reports st.id x t0 now'
    refine ⟨taskMoved_all h.reach, hlater, hf', fun _ => ?_, fun st t0 ref e => ?_, fun e => ?_⟩
    · rw [modify_concat]
      have e1 : t'.evs ++ t'.pc.pend = t.evs ++ t.pc.pend ++
          [.stepState (stepResult st.id x t0 now').id (stepResult st.id x t0 now').state, .stepCompleted (stepResult st.id x t0 now')] := by
        rw [ht1]; simp [SysTask.stepDone, SysTask.emitThen, SysPc.pend, hpc]
      rw [e1, handedOver_other (by intro e he; simp at he; rcases he with rfl | rfl <;> rfl), a5]
      have e2 : t'.results = t.results ++ [stepResult st.id x t0 now'] := by rw [ht1]; rfl
      rw [e2, executed_step, List.take_of_length_le hidx]
      refine a6.snoc (fun c m e => ?_) (fun e => ?_)
      · cases o with
        | none => cases e
        | some y =>
          obtain ⟨b1, b2, b3, b4, b5, b6⟩ := a3
          simp only [Option.map_some, Option.some.injEq, Prod.mk.injEq] at e
          have hnone : t.stream.logs[t.stream.index]? = none := List.getElem?_eq_none hidx
          have hp : y.2.step .engPoll = some { y.2 with outer := { y.2.outer with waker := some 1 }, engineDone := true } := by
            simp only [RemoteRun.step, b5, StreamState.poll, b2, b3, b4, hnone, hx]
            rfl
          obtain ⟨o1, o2, o3⟩ := taskMoved_recv (sg := t'.sig) hp
          obtain ⟨na, q1, _⟩ := h.reach D.length y.1 y.2 (by simp)
          refine ⟨st, x, ?_, by rw [← e.1]; exact b1, by rw [← e.2, o2], by rw [← e.2, o1]; exact b3.trans hx, r1, r2⟩
          rw [← e.2, o3]
          simp only [got_eq q1, b2, b4, List.take_of_length_le hidx]
      · cases o with
        | some y => cases e
        | none =>
          obtain ⟨b1, b2⟩ := a3
          rw [hx] at b2
          cases b2
          exact ⟨st, by rw [b1], r1, r2⟩
    · subst ht1; simp [SysTask.stepDone, SysTask.emitThen] at e
    · subst ht1; simp [SysTask.stepDone, SysTask.emitThen, SysPc.reading] at e

/-- Reachability of all calls after one of them has moved. -/
theorem net_all {moves : Nat → List RemoteAct} {vs : List RCall} {n : Nat} {a : RemoteAct} {c : Command} {m m' : RemoteRun}
    (h : ∀ (n : Nat) (c : Command) (m : RemoteRun), vs[n]? = some (some (c, m)) → ∃ na, RemoteReach na m ∧ na.filter notEngine = moves n)
    (hget : vs[n]? = some (some (c, m))) (ha : (∀ v, a ≠ .setSignal v) ∧ a ≠ .engPoll) (hs : m.step a = some m') :
    ∀ (k : Nat) (d : Command) (y : RemoteRun), (vs.set n (some (c, m')))[k]? = some (some (d, y)) →
      ∃ na, RemoteReach na y ∧ na.filter notEngine = moves k ++ labMoves k (some (n, a)) := by
  have hnots : notEngine a = true := by
    cases a <;> first | rfl | exact absurd rfl (ha.1 _) | exact absurd rfl ha.2
  intro k d y hk
  rcases set_get hk with ⟨rfl, e, _⟩ | ⟨hne, hk⟩
  · cases e
    obtain ⟨na, h1, h2⟩ := h n c m hget
    exact ⟨na ++ [a], remoteReach_snoc h1 hs, by simp [h2, hnots, labMoves]⟩
  · obtain ⟨na, h1, h2⟩ := h k d y hk
    exact ⟨na, h1, by simp [labMoves, hne, h2]⟩

/-- `RInv` of a job task that may not exist yet. -/
def ROk (moves : Nat → List RemoteAct) : Option SysTask → List RCall → Prop
  | none, vs => vs = [] ∧ ∀ n, moves n = []
  | some t, vs => RInv moves t vs

theorem ROk.move {moves : Nat → List RemoteAct} {lab : Option (Nat × RemoteAct)} {o o' : Option SysTask} {vs vs' : List RCall}
    (h : ROk moves o vs) (hm : RMove lab o vs o' vs') : ROk (fun n => moves n ++ labMoves n lab) o' vs' := by
  have hnil : ∀ n, moves n = moves n ++ labMoves n none := fun n => by simp [labMoves]
  cases hm with
  | same =>
    have : (fun n => moves n ++ labMoves n none) = moves := funext fun n => (hnil n).symm
    rw [this]; exact h
  | born k j =>
    obtain ⟨rfl, h2⟩ : vs = [] ∧ ∀ n, moves n = [] := h
    exact (RInv.fresh k j).of_moves (fun n => by simp [h2, labMoves])
  | eng g g' ρ ρ' now i r b t t' _ hb ht hs ht' => exact (RInv.eng_move h hb ht hs ht').of_moves hnil
  | dispatched t _ st t0 ref hpc =>
    have h : RInv moves t vs := h
    obtain ⟨a1, a2, H, a3, a4⟩ := h.calling st t0 ref hpc
    refine RInv.of_moves (f := moves) ?_ hnil
    refine ⟨fun n c m hn => ?_, fun n hn => h.later n (by simp at hn; omega), ⟨fun e => by simp [SysTask.emitThen] at e, fun es k e => ?_,
      fun e => by simp [SysTask.emitThen, stepOf] at e⟩, fun e => by simp [SysTask.emitThen, stepOf] at e,
      fun st t0 ref e => by simp [SysTask.emitThen] at e, fun _ => ?_⟩
    · rcases snoc_get hn with hn | ⟨rfl, e⟩
      · exact h.reach n c m hn
      · cases e
        exact ⟨[], rfl, by rw [h.later _ (Nat.le_refl _)]; rfl⟩
    · simp only [SysTask.emitThen, SysPc.emitting.injEq] at e
      obtain ⟨rfl, rfl⟩ := e
      exact ⟨rfl, by simp⟩
    · refine ⟨st, vs, _, H, rfl, rfl, ⟨rfl, ?_, ?_, ?_, rfl, ?_⟩, ?_, ?_, a4⟩
      · simp [SysTask.emitThen, a1]
      · simp [SysTask.emitThen, a1]
      · simp [SysTask.emitThen, a1]
      · simp [SysTask.emitThen, a2]
      · simp [SysTask.emitThen, a1]
      · have : (t.emitThen [.stepState st.id .inProgress] (.handling st t0 ref)).evs ++
            (t.emitThen [.stepState st.id .inProgress] (.handling st t0 ref)).pc.pend = t.evs ++ t.pc.pend ++ [.stepState st.id .inProgress] := by
          simp [SysTask.emitThen, SysPc.pend, hpc]
        rw [this, handedOver_other (by intro e he; simp at he; subst he; rfl), a3]
        simp [SysTask.emitThen, a1]
  | refused t _ st t0 ref hpc s hs =>
    have h : RInv moves t vs := h
    obtain ⟨a1, a2, H, a3, a4⟩ := h.calling st t0 ref hpc
    have hs1 : s.logs = [Log.ofError "No runner available"] ∧ s.result = some (.failed 1) ∧ s.index = 0 := by
      rw [hs, a1]; exact ⟨rfl, rfl, rfl⟩
    refine RInv.of_moves (f := moves) ?_ hnil
    refine ⟨fun n c m hn => ?_, fun n hn => h.later n (by simp at hn; omega), ⟨fun e => by simp [SysTask.emitThen] at e, fun es k e => ?_,
      fun e => by simp [SysTask.emitThen, stepOf] at e⟩, fun e => by simp [SysTask.emitThen, stepOf] at e,
      fun st t0 ref e => by simp [SysTask.emitThen] at e, fun _ => ?_⟩
    · rcases snoc_get hn with hn | ⟨_, e⟩
      · exact h.reach n c m hn
      · cases e
    · simp only [SysTask.emitThen, SysPc.emitting.injEq] at e
      obtain ⟨rfl, rfl⟩ := e
      exact ⟨rfl, by simp⟩
    · refine ⟨st, vs, _, H, rfl, rfl, ⟨hs1.1, hs1.2.1⟩, ?_, ?_, a4⟩
      · simp [SysTask.emitThen, hs1.2.2]
      · have : t.evs ++ (SysPc.emitting [Event.stepState st.id .inProgress] (.handling st t0 ref)).pend =
            t.evs ++ t.pc.pend ++ [.stepState st.id .inProgress] := by
          simp [SysPc.pend, hpc]
        simp only [SysTask.emitThen]
        rw [this, handedOver_other (by intro e he; simp at he; subst he; rfl), a3]
        simp [hs1.2.2]
  | other _ _ n a c m m' hget ha hs ho =>
    cases o with
    | none =>
      obtain ⟨rfl, _⟩ : vs = [] ∧ ∀ n, moves n = [] := h
      simp at hget
    | some t =>
      have h : RInv moves t vs := h
      have hn := (List.getElem?_eq_some_iff.1 hget).1
      refine ⟨net_all h.reach hget ha hs, fun k hk => ?_, h.form, fun e => (h.idle e).set hget ha hs, fun st t0 ref e => ?_, fun e => ?_⟩
      · rw [List.length_set] at hk
        rw [h.later k hk]
        simp only [labMoves]
        rw [if_neg (by omega)]; rfl
      · obtain ⟨a1, a2, H, a3, a4⟩ := h.calling st t0 ref e
        exact ⟨a1, a2, H, a3, a4.set hget ha hs⟩
      · obtain ⟨st, D, q, H, a1, rfl, a3, a4, a5, a6⟩ := h.link e
        have hlt : n < D.length := by
          have := ho t rfl e
          simp only [List.length_append, List.length_cons, List.length_nil] at this hn
          omega
        rw [List.getElem?_append_left hlt] at hget
        exact ⟨st, D.set n (some (c, m')), q, H, a1, by rw [List.set_append_left _ _ hlt], a3, a4, a5, a6.set hget ha hs⟩
  | wrote t _ n a c m m' hget ha hs hr hn =>
    have h : RInv moves t vs := h
    obtain ⟨st, D, q, H, a1, rfl, a3, a4, a5, a6⟩ := h.link hr
    have hnD : n = D.length := by simp at hn; exact hn
    subst hnD
    have hq : q = some (c, m) := by simpa using hget
    subst hq
    obtain ⟨b1, b2, b3, b4, b5, b6⟩ := a3
    obtain ⟨g1, g2, g3, g4, g5⟩ := net_step ha hs
    obtain ⟨w1, w2, w3⟩ := write_writes g1 b2 b3
    obtain ⟨w, hw⟩ := g1.logs
    have ne : stepOf t.pc ≠ none := reading_step_some hr
    refine ⟨net_all h.reach hget ha hs, fun k hk => ?_, ⟨fun e => ?_, h.form.form, fun e => absurd e ne⟩, fun e => absurd e ne,
      fun st t0 ref e => ?_, fun _ => ?_⟩
    · rw [List.length_set] at hk
      rw [h.later k hk]
      simp only [labMoves]
      rw [if_neg (by simp at hk; omega)]; rfl
    · have e' : t.pc = .init := e
      rw [e'] at hr; cases hr
    · have e' : t.pc = .calling st t0 ref := e
      rw [e'] at hr; cases hr
    · refine ⟨st, D, some (c, m'), H, a1, by simp, ⟨b1, w1.symm, w2.symm, by rw [w3, g2]; exact b4, by rw [g3]; exact b5, by rw [g5]; exact b6⟩,
        ?_, ?_, a6⟩
      · simp only [w1, w3, ← hw, List.length_append, b2]; omega
      · simp only [w1, w3, ← hw, b2, List.take_append_of_le_length a4]; exact a5

/-- What is known about the engine and its client. -/
structure REngineInv (acts : List RemoteEngineAct) (E : RemoteEngine) : Prop where
  sys : ∃ sa, SysReach sa E.sys ∧ sa.filter (fun a => !a.byRunner) = remoteEngineMoves acts
  pairs : ∀ r i, ROk (fun n => callMoves r i n acts) (taskAt E.sys r i) ((E.calls r i).map callView)

/-- The engine's own part of a move. -/
def RemoteEngineAct.engPart : RemoteEngineAct → List SysAct
  | .sys b => [b]
  | _ => []

theorem remoteEngineMoves_snoc (acts : List RemoteEngineAct) (a : RemoteEngineAct) :
    remoteEngineMoves (acts ++ [a]) = remoteEngineMoves acts ++ a.engPart := by
  cases a <;> simp [remoteEngineMoves, List.filterMap_append, RemoteEngineAct.engPart]

theorem rhidden_filter {a : RemoteEngineAct} {sa : List SysAct} (h : RHidden a sa) :
    sa.filter (fun a => !a.byRunner) = a.engPart := by
  cases a with
  | sys b =>
    obtain ⟨h1, rfl⟩ := h
    simp [h1, RemoteEngineAct.engPart]
  | _ =>
    simp only [RHidden] at h
    simpa [List.filter_eq_nil_iff, RemoteEngineAct.engPart] using h

theorem callMoves_snoc (r i n : Nat) (acts : List RemoteEngineAct) (a : RemoteEngineAct) :
    callMoves r i n (acts ++ [a]) = callMoves r i n acts ++ callMoves r i n [a] := by simp [callMoves]

theorem rengineInv_step {acts : List RemoteEngineAct} {E E' : RemoteEngine} {a : RemoteEngineAct} (h : REngineInv acts E)
    (hs : E.step a = some E') : REngineInv (acts ++ [a]) E' := by
  obtain ⟨⟨sa, h2, h3⟩, h4⟩ := remote_move hs
  obtain ⟨sa0, k1, k2⟩ := h.sys
  refine ⟨⟨sa0 ++ sa, ?_, ?_⟩, fun r i => ?_⟩
  · unfold SysReach at k1 ⊢
    rw [runs_append, k1]
    exact h3
  · rw [List.filter_append, k2, rhidden_filter h2, remoteEngineMoves_snoc]
  · obtain ⟨lab, e1, e2⟩ := h4 r i
    have : (fun n => callMoves r i n (acts ++ [a])) = fun n => callMoves r i n acts ++ labMoves n lab :=
      funext fun n => by rw [callMoves_snoc, e1]
    rw [this]
    exact (h.pairs r i).move e2

theorem rengineInv_reach {acts : List RemoteEngineAct} {E : RemoteEngine} (h : RemoteEngineReach acts E) : REngineInv acts E := by
  refine runs_induct (P := fun acts E => REngineInv acts E) ?_ ?_ h
  · exact ⟨⟨[], rfl, rfl⟩, fun r i => ⟨rfl, fun _ => rfl⟩⟩
  · intro acts a E E' _ ih hs
    exact rengineInv_step ih hs

end AstroRun
