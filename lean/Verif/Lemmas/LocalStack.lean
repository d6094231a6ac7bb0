import Verif.Spec.LocalStack
import Verif.Lemmas.LocalRun
import Verif.Lemmas.JobMachine

/-! # Lemmas: a job on the local runner -/

namespace AstroRun
open Spec

/-- What one move of a task does to its stream. -/
inductive Wrote (l l' : LocalRun) : Prop
  | log (x : Log) (hl : l'.stream.logs = l.stream.logs ++ [x]) (hr : l'.stream.result = l.stream.result)
  | ended (r : RunResult) (hl : l'.stream.logs = l.stream.logs) (h0 : l.stream.result = none)
      (hr : l'.stream.result = some r)
  | nothing (hl : l'.stream.logs = l.stream.logs) (hr : l'.stream.result = l.stream.result)

theorem wrote_endSeq {l l' : LocalRun} {r : RunResult} (h : l'.stream = (l.stream.endSeq r).1) : Wrote l l' := by
  cases hr : l.stream.result with
  | none =>
    refine .ended r (by rw [h, endSeq_logs_eq]) hr (by rw [h, endSeq_result_none hr])
  | some r0 => exact .nothing (by rw [h, endSeq_logs_eq]) (by rw [h, endSeq_result_some hr])

theorem wrote_step {l l' : LocalRun} {a : LocalAct} (hs : l.step a = some l') : Wrote l l' := by
  have same : l'.stream = l.stream → Wrote l l' := fun e => .nothing (by rw [e]) (by rw [e])
  have push : ∀ x, l'.stream = (l.stream.push x).1 → Wrote l l' := fun x e => .log x (by rw [e]; rfl) (by rw [e]; rfl)
  cases a <;> simp only [LocalRun.step] at hs
  case finish =>
    split at hs <;> simp only [Option.some.injEq, reduceCtorEq] at hs
    subst hs
    cases he : l.stream.isEnded
    · exact wrote_endSeq (r := .failed 1) (by simp)
    · refine .nothing ?_ ?_ <;> simp
  all_goals
    repeat' (split at hs)
    all_goals simp only [Option.some.injEq, reduceCtorEq] at hs
    all_goals subst hs
    all_goals first | exact same rfl | exact wrote_endSeq rfl | exact push _ rfl

theorem wrote_log {l l' : LocalRun} {x : Log} (hl : l'.stream.logs = l.stream.logs ++ [x]) :
    l.wrote l' = some (.push x) := by
  have : l'.stream.logs ≠ l.stream.logs := by rw [hl]; simp
  simp [LocalRun.wrote, hl]

theorem wrote_ended {l l' : LocalRun} {r : RunResult} (hl : l'.stream.logs = l.stream.logs)
    (h0 : l.stream.result = none) (hr : l'.stream.result = some r) : l.wrote l' = some (.endStream r) := by
  simp [LocalRun.wrote, hl, h0, hr]

theorem wrote_nothing {l l' : LocalRun} (hl : l'.stream.logs = l.stream.logs)
    (hr : l'.stream.result = l.stream.result) : l.wrote l' = none := by
  simp [LocalRun.wrote, hl, hr]

theorem push_reading {m : JobM} (h : m.pc.reading = true) (x : Log) :
    m.step (.push x) = some { m with stream := (m.stream.push x).1 } := by
  cases hp : m.pc <;> simp [hp, JobPc.reading] at h <;> simp [JobM.step, hp]

theorem end_reading {m : JobM} (h : m.pc.reading = true) (r : RunResult) :
    m.step (.endStream r) = some { m with stream := (m.stream.endSeq r).1 } := by
  cases hp : m.pc <;> simp [hp, JobPc.reading] at h <;> simp [JobM.step, hp]

/-- The engine's view after a move of its task: only the stream changes, as the task's does. -/
theorem absorb_spec {m : JobM} (hm : m.pc.reading = true) {l l' : LocalRun} {a : LocalAct} (hs : l.step a = some l')
    (hl : l.stream.logs = m.stream.logs) (hr : l.stream.result = m.stream.result) :
    ∃ st, m.absorb (l.wrote l') = { m with stream := st } ∧ st.logs = l'.stream.logs ∧ st.result = l'.stream.result ∧
      st.index = m.stream.index ∧
      (m.absorb (l.wrote l') = m ∨ ∃ b, b.byRunner = true ∧ m.step b = some (m.absorb (l.wrote l'))) := by
  cases wrote_step hs with
  | log x h1 h2 =>
    rw [wrote_log h1]
    refine ⟨(m.stream.push x).1, by simp [JobM.absorb, push_reading hm], ?_, ?_, rfl, .inr ⟨.push x, rfl, ?_⟩⟩
    · rw [h1, hl]; rfl
    · rw [h2, hr]; rfl
    · simp [JobM.absorb, push_reading hm]
  | ended r h1 h0 h2 =>
    rw [wrote_ended h1 h0 h2]
    have h0' : m.stream.result = none := by rw [← hr]; exact h0
    refine ⟨(m.stream.endSeq r).1, by simp [JobM.absorb, end_reading hm], ?_, ?_, ?_, .inr ⟨.endStream r, rfl, ?_⟩⟩
    · rw [endSeq_logs_eq, h1, hl]
    · rw [endSeq_result_none h0', h2]
    · simp only [StreamState.endSeq]; split <;> rfl
    · simp [JobM.absorb, end_reading hm]
  | nothing h1 h2 =>
    rw [wrote_nothing h1 h2]
    exact ⟨m.stream, rfl, by rw [h1, hl], by rw [h2, hr], rfl, .inl rfl⟩

/-- A move of the engine while it reads a stream and goes on reading it. -/
theorem eng_reading {m m' : JobM} {a : JobAct} (ha : a.byRunner = false) (hs : m.step a = some m')
    (h' : m'.pc.reading = true) :
    m.pc.reading = true ∧ m'.stream.logs = m.stream.logs ∧ m'.stream.result = m.stream.result ∧
      (∀ v, m.sig.signal = some v → m'.sig.signal = some v) ∧ runningStep m'.pc = runningStep m.pc := by
  have keep : ∀ v w, m.sig.signal = some v → (m.sig.set w).state.signal = some v := by
    intro v w e
    rw [set_signal, e]; rfl
  cases a <;> simp only [JobAct.byRunner, reduceCtorEq] at ha <;> simp only [JobM.step] at hs
  case check | nextStep | finishJob | call =>
    repeat' (split at hs)
    all_goals simp only [Option.some.injEq, reduceCtorEq] at hs
    all_goals (subst hs; simp [JobPc.reading] at h')
    all_goals simp_all [JobM.emit, JobPc.reading]
  case tick n =>
    simp only [Option.some.injEq] at hs
    subst hs
    exact ⟨h', rfl, rfl, fun _ h => h, rfl⟩
  case cancel =>
    split at hs <;> simp only [Option.some.injEq] at hs <;> subst hs <;> exact ⟨h', rfl, rfl, fun _ h => h, rfl⟩
  case enter =>
    split at hs <;> simp only [Option.some.injEq, reduceCtorEq] at hs
    rename_i hp
    subst hs
    exact ⟨by rw [hp]; rfl, rfl, rfl, fun _ h => h, by rw [hp]; rfl⟩
  case timer =>
    split at hs
    · rename_i hp
      split at hs <;> simp only [Option.some.injEq, reduceCtorEq] at hs
      subst hs
      exact ⟨by rw [hp]; rfl, rfl, rfl, fun v h => keep v _ h, by rw [hp]; rfl⟩
    · simp at hs
  case jobSignal =>
    split at hs
    · rename_i hp _
      split at hs <;> simp only [Option.some.injEq, reduceCtorEq] at hs
      subst hs
      exact ⟨by rw [hp]; rfl, rfl, rfl, fun v h => keep v _ h, by rw [hp]; rfl⟩
    · simp at hs
  case recv =>
    split at hs
    · rename_i hp
      split at hs
      · rename_i st' l hpoll
        simp only [Option.some.injEq] at hs
        subst hs
        refine ⟨by rw [hp]; rfl, ?_, ?_, fun _ h => h, by rw [hp]; rfl⟩
        all_goals
          simp only [StreamState.poll] at hpoll
          split at hpoll
          · simp only [Prod.mk.injEq] at hpoll
            rw [← hpoll.1]
          · split at hpoll <;> simp at hpoll
      · split at hs <;> simp only [Option.some.injEq, reduceCtorEq] at hs <;> subst hs <;>
          simp [JobM.stepDone, JobPc.reading] at h'
      · simp at hs
    · simp at hs

/-- Both sides see the same stream and the same signal, and each follows its own rules. -/
structure StackInv (cfg : LocalSetup) (job : Job) (t : Time) (s : LocalStack) : Prop where
  setup : s.setup = cfg
  eng : ∃ ja, JobReach job t ja s.eng
  tasks : ∀ (i : Nat) (p : RunPlan) (l : LocalRun), s.tasks[i]? = some (p, l) → ∃ la, LocalReach p cfg.plugins.length la l
  link : s.eng.pc.reading = true → ∃ p l, s.tasks.getLast? = some (p, l) ∧ l.stream.logs = s.eng.stream.logs ∧
    l.stream.result = s.eng.stream.result ∧ l.sig.signal = s.eng.sig.signal ∧
    ∃ st, runningStep s.eng.pc = some st ∧ PlanFor cfg st p
  calling : ∀ st t0, s.eng.pc = .calling st t0 → s.eng.stream = {} ∧ s.eng.sig = {}

/-- Reaching `Runner::run`: the stream and the signal are new. -/
theorem eng_calling {m m' : JobM} {a : JobAct} (ha : a.byRunner = false) (hs : m.step a = some m') {st : Step} {t0 : Time}
    (h' : m'.pc = .calling st t0) (hm : m.pc = .calling st t0 → m.stream = {} ∧ m.sig = {}) :
    m'.stream = {} ∧ m'.sig = {} := by
  cases a <;> simp only [JobAct.byRunner, reduceCtorEq] at ha <;> simp only [JobM.step] at hs
  all_goals
    repeat' (split at hs)
    all_goals simp only [Option.some.injEq, reduceCtorEq] at hs
    all_goals subst hs
    all_goals first
      | exact hm h'
      | exact ⟨rfl, rfl⟩
      | simp [JobM.stepDone] at h'
      | (simp_all [JobM.emit]; done)

theorem localReach_snoc {p : RunPlan} {n : Nat} {la : List LocalAct} {l l' : LocalRun} {a : LocalAct}
    (h : LocalReach p n la l) (hs : l.step a = some l') : LocalReach p n (la ++ [a]) l' := by
  rw [LocalReach] at *
  exact runs_snoc.2 ⟨l, h, hs⟩

theorem share_reach {p : RunPlan} {n : Nat} {la : List LocalAct} {l : LocalRun} (h : LocalReach p n la l) (sg : SigState) :
    ∃ la', LocalReach p n la' (l.shareSignal sg) := by
  cases hv : sg.signal with
  | none => exact ⟨la, by simpa [LocalRun.shareSignal, hv] using h⟩
  | some v =>
    refine ⟨la ++ [.setSignal v], ?_⟩
    have : l.step (.setSignal v) = some (l.shareSignal sg) := by simp [LocalRun.step, LocalRun.shareSignal, hv]
    exact localReach_snoc h this

theorem getLast_index {α : Type} {l : List α} {x : α} (h : l.getLast? = some x) : l[l.length - 1]? = some x := by
  rw [List.getLast?_eq_getElem?] at h; exact h

theorem modify_get {α : Type} {l : List α} {i : Nat} {f : α → α} {j : Nat} {x : α} (h : (l.modify i f)[j]? = some x) :
    l[j]? = some x ∨ (i = j ∧ ∃ y, l[j]? = some y ∧ x = f y) := by
  rw [List.getElem?_modify] at h
  by_cases hij : i = j
  · subst hij
    cases hy : l[i]? with
    | none => simp [hy] at h
    | some y => simp [hy] at h; exact .inr ⟨rfl, y, rfl, h.symm⟩
  · simp [hij] at h; exact .inl h

theorem modify_last {α : Type} {l : List α} {f : α → α} {x : α} (h : l.getLast? = some x) :
    (l.modify (l.length - 1) f).getLast? = some (f x) := by
  have := getLast_index h
  rw [List.getLast?_eq_getElem?, List.length_modify, List.getElem?_modify]
  simp [this]

/-- What a move of a task is. -/
theorem loc_step {s s' : LocalStack} {i : Nat} {a : LocalAct} (hs : s.step (.loc i a) = some s') :
    ∃ (p : RunPlan) (l l' : LocalRun), s.tasks[i]? = some (p, l) ∧ (∀ v, a ≠ .setSignal v) ∧ l.step a = some l' ∧
      s' = { s with
        eng := if s.eng.pc.reading && i + 1 == s.tasks.length then s.eng.absorb (l.wrote l') else s.eng
        tasks := s.tasks.set i (p, l') } := by
  simp only [LocalStack.step] at hs
  split at hs
  · simp at hs
  · rename_i p l hget hne
    simp only [Option.map_eq_some_iff] at hs
    obtain ⟨l', hl, e⟩ := hs
    exact ⟨p, l, l', hget, fun v e => hne v e, hl, e.symm⟩
  · simp at hs

/-- A task does not write its signal. -/
theorem signal_step {l l' : LocalRun} {a : LocalAct} (hne : ∀ v, a ≠ .setSignal v) (hs : l.step a = some l') :
    l'.sig.signal = l.sig.signal := by
  cases a <;> simp only [LocalRun.step] at hs
  case setSignal v => exact absurd rfl (hne v)
  case sigReady =>
    split at hs
    · split at hs
      · rename_i sg v hp
        have := (poll_some hp)
        split at hs <;> simp only [Option.some.injEq] at hs <;> subst hs <;> simp [this]
      · simp at hs
    · simp at hs
  all_goals
    repeat' (split at hs)
    all_goals simp only [Option.some.injEq, reduceCtorEq] at hs
    all_goals subst hs
    all_goals rfl

theorem stackInv_step {cfg : LocalSetup} {job : Job} {t : Time} {s s' : LocalStack} {a : StackAct}
    (h : StackInv cfg job t s) (hs : s.step a = some s') : StackInv cfg job t s' := by
  obtain ⟨ja, hja⟩ := h.eng
  have ext : ∀ b m, s.eng.step b = some m → ∃ ja, JobReach job t ja m :=
    fun b m hm => ⟨ja ++ [b], runs_snoc.2 ⟨s.eng, hja, hm⟩⟩
  cases a with
  | eng a =>
    simp only [LocalStack.step] at hs
    split at hs
    · simp at hs
    · rename_i hb
      simp only [Option.map_eq_some_iff] at hs
      obtain ⟨m, hm, rfl⟩ := hs
      refine ⟨h.setup, ext a m hm, fun i p l hl => ?_, fun hr => ?_, fun st t0 hc => eng_calling (by simpa using hb) hm hc (h.calling st t0)⟩
      · simp only at hl
        split at hl
        · rcases modify_get hl with hl | ⟨_, y, hy, e⟩
          · exact h.tasks i p l hl
          · obtain ⟨la, hla⟩ := h.tasks i y.1 y.2 hy
            simp only [Prod.mk.injEq] at e
            rw [e.1, e.2]
            exact share_reach hla _
        · exact h.tasks i p l hl
      · simp only at hr
        obtain ⟨h1, h2, h3, h4, h5⟩ := eng_reading (by simpa using hb) hm hr
        obtain ⟨p, l, e1, e2, e3, e4, e5⟩ := h.link h1
        refine ⟨p, l.shareSignal m.sig, ?_, ?_, ?_, ?_, by rw [h5]; exact e5⟩
        · simp only [hr, if_true]
          rw [modify_last e1]
        · rw [h2, ← e2]
          simp only [LocalRun.shareSignal]; split <;> rfl
        · rw [h3, ← e3]
          simp only [LocalRun.shareSignal]; split <;> rfl
        · simp only [LocalRun.shareSignal]
          split
          · rename_i v hv
            rw [hv]
            simp only [set_signal, e4]
            cases he : s.eng.sig.signal with
            | none => rfl
            | some w => rw [h4 w he] at hv; exact hv
          · rename_i hv
            rw [hv, e4]
            cases he : s.eng.sig.signal with
            | none => rfl
            | some w => rw [h4 w he] at hv; simp at hv
  | spawned past envs =>
    simp only [LocalStack.step] at hs
    split at hs
    · rename_i st t0 hpc
      simp only [Option.map_eq_some_iff] at hs
      obtain ⟨m, hm, rfl⟩ := hs
      have hm' := hm
      simp only [JobM.step, hpc, Option.some.injEq] at hm'
      refine ⟨h.setup, ext _ m hm, fun i p l hl => ?_, fun _ => ?_, fun st' t0' hc => ?_⟩
      · simp only [List.getElem?_append] at hl
        split at hl
        · exact h.tasks i p l hl
        · cases hi : i - s.tasks.length with
          | zero =>
            simp only [hi, List.getElem?_cons_zero, Option.some.injEq, Prod.mk.injEq] at hl
            obtain ⟨rfl, rfl⟩ := hl
            refine ⟨[], ?_⟩
            rw [h.setup]
            rfl
          | succ k => simp [hi] at hl
      · obtain ⟨h1, h2⟩ := h.calling st t0 hpc
        refine ⟨_, _, List.getLast?_concat .., ?_⟩
        subst hm'
        simp only [JobM.emit, h1, h2]
        refine ⟨rfl, rfl, rfl, st, rfl, past, s.mem, envs, ?_⟩
        rw [h.setup]
      · subst hm'
        simp [JobM.emit] at hc
    · simp at hs
  | loc i a =>
    obtain ⟨p, l, l', hget, hne, hstep, hs'⟩ := loc_step hs
    subst hs'
    obtain ⟨la, hla⟩ := h.tasks i p l hget
    have hlt : i < s.tasks.length := (List.getElem?_eq_some_iff.1 hget).1
    have tasks : ∀ (j : Nat) (q : RunPlan) (k : LocalRun), (s.tasks.set i (p, l'))[j]? = some (q, k) →
        ∃ la, LocalReach q cfg.plugins.length la k := by
      intro j q k hj
      rw [List.getElem?_set] at hj
      split at hj
      · simp only [hlt, if_true, Option.some.injEq, Prod.mk.injEq] at hj
        obtain ⟨rfl, rfl⟩ := hj
        exact ⟨_, localReach_snoc hla hstep⟩
      · exact h.tasks j q k hj
    by_cases hc : s.eng.pc.reading = true ∧ i + 1 = s.tasks.length
    · obtain ⟨hr, hi⟩ := hc
      obtain ⟨p0, l0, e1, e2, e3, e4, e5⟩ := h.link hr
      have : (p, l) = (p0, l0) := by
        have := getLast_index e1
        rw [show s.tasks.length - 1 = i by omega, hget, Option.some.injEq] at this
        exact this
      obtain ⟨rfl, rfl⟩ := Prod.mk.injEq .. ▸ this
      obtain ⟨st, a1, a2, a3, a4, a5⟩ := absorb_spec hr hstep e2 e3
      have hc' : (s.eng.pc.reading && i + 1 == s.tasks.length) = true := by simp [hr, hi]
      simp only [hc', if_true]
      refine ⟨h.setup, ?_, tasks, fun _ => ⟨p, l', ?_, ?_, ?_, ?_, by rw [a1]; exact e5⟩, fun st' t0' hc => ?_⟩
      · rcases a5 with a5 | ⟨b, _, hb⟩
        · exact ⟨ja, by rw [a5]; exact hja⟩
        · exact ext b _ hb
      · rw [List.getLast?_eq_getElem?, List.length_set, show s.tasks.length - 1 = i by omega]
        simp [hlt]
      · rw [a1]; exact a2.symm
      · rw [a1]; exact a3.symm
      · rw [a1]
        simp only
        rw [← e4]
        exact signal_step hne hstep
      · simp only [a1] at hc
        simp [hc, JobPc.reading] at hr
    · have hc' : (s.eng.pc.reading && i + 1 == s.tasks.length) = false := by
        cases hr : s.eng.pc.reading
        · rfl
        · simp [hr] at hc; simp [hc]
      simp only [hc', Bool.false_eq_true, if_false]
      refine ⟨h.setup, ⟨ja, hja⟩, tasks, fun hr => ?_, h.calling⟩
      obtain ⟨p0, l0, e1, e2⟩ := h.link hr
      refine ⟨p0, l0, ?_, e2⟩
      simp only at hr
      simp [hr] at hc
      rw [List.getLast?_eq_getElem?, List.length_set, List.getElem?_set_ne (by omega)]
      exact getLast_index e1
  | others mem =>
    cases hs
    exact ⟨h.setup, h.eng, h.tasks, h.link, h.calling⟩

theorem stackInv_initial (cfg : LocalSetup) (job : Job) (t : Time) : StackInv cfg job t (LocalStack.initial cfg job t) :=
  ⟨rfl, ⟨[], rfl⟩, fun i p l h => by simp [LocalStack.initial] at h, fun h => by simp [LocalStack.initial, JobM.initial, JobPc.reading] at h,
    fun st t0 h => by simp [LocalStack.initial, JobM.initial] at h⟩

theorem stackInv_reach {cfg : LocalSetup} {job : Job} {t : Time} {acts : List StackAct} {s : LocalStack}
    (h : StackReach cfg job t acts s) : StackInv cfg job t s :=
  runs_induct (P := fun _ s => StackInv cfg job t s) (stackInv_initial cfg job t)
    (fun _ _ _ _ _ ih hs => stackInv_step ih hs) h

/-! ## One move, seen from the task spawned last -/

theorem last_eng {s s' : LocalStack} {b : JobAct} {p : RunPlan} {l : LocalRun} (hl : s.tasks.getLast? = some (p, l))
    (hs : s.step (.eng b) = some s') :
    b.byRunner = false ∧ s.eng.step b = some s'.eng ∧ s'.tasks.length = s.tasks.length ∧
      s'.tasks.getLast? = some (p, if s'.eng.pc.reading then l.shareSignal s'.eng.sig else l) := by
  simp only [LocalStack.step] at hs
  split at hs
  · simp at hs
  · rename_i hb
    simp only [Option.map_eq_some_iff] at hs
    obtain ⟨m, hm, rfl⟩ := hs
    refine ⟨by simpa using hb, hm, ?_, ?_⟩
    · simp only; split <;> simp
    · simp only
      split
      · rw [modify_last hl]
      · exact hl

theorem last_other {s s' : LocalStack} {i : Nat} {b : LocalAct} {p : RunPlan} {l : LocalRun}
    (hl : s.tasks.getLast? = some (p, l)) (hi : i + 1 ≠ s.tasks.length) (hs : s.step (.loc i b) = some s') :
    s'.eng = s.eng ∧ s'.tasks.length = s.tasks.length ∧ s'.tasks.getLast? = some (p, l) := by
  obtain ⟨q, k, k', hget, _, _, rfl⟩ := loc_step hs
  have hlt : i < s.tasks.length := (List.getElem?_eq_some_iff.1 hget).1
  have : (i + 1 == s.tasks.length) = false := by simp [hi]
  refine ⟨by simp [this], by simp, ?_⟩
  rw [List.getLast?_eq_getElem?, List.length_set, List.getElem?_set_ne (by omega)]
  exact getLast_index hl

theorem last_own {s s' : LocalStack} {i : Nat} {b : LocalAct} {p : RunPlan} {l : LocalRun}
    (hl : s.tasks.getLast? = some (p, l)) (hi : i + 1 = s.tasks.length) (hs : s.step (.loc i b) = some s') :
    ∃ l', l.step b = some l' ∧ (∀ v, b ≠ .setSignal v) ∧ s'.tasks.length = s.tasks.length ∧
      s'.tasks.getLast? = some (p, l') ∧ s'.eng = if s.eng.pc.reading then s.eng.absorb (l.wrote l') else s.eng := by
  obtain ⟨q, k, k', hget, hne, hst, rfl⟩ := loc_step hs
  have hlt : i < s.tasks.length := (List.getElem?_eq_some_iff.1 hget).1
  have := getLast_index hl
  rw [show s.tasks.length - 1 = i by omega, hget, Option.some.injEq, Prod.mk.injEq] at this
  obtain ⟨rfl, rfl⟩ := this
  refine ⟨k', hst, hne, by simp, ?_, by simp [hi]⟩
  rw [List.getLast?_eq_getElem?, List.length_set, show s.tasks.length - 1 = i by omega]
  simp [hlt]

/-- A move of the task can be made. -/
theorem loc_enabled {s : LocalStack} {p : RunPlan} {l : LocalRun} {b : LocalAct} (hl : s.tasks.getLast? = some (p, l))
    (hb : b.own = true) (h : l.step b ≠ none) : (s.step (.loc (s.tasks.length - 1) b)).isSome = true := by
  have := getLast_index hl
  cases hl' : l.step b with
  | none => exact absurd hl' h
  | some l' =>
    cases b <;> simp only [LocalAct.own, reduceCtorEq] at hb <;> simp [LocalStack.step, this, hl']

theorem eng_enabled {s : LocalStack} {b : JobAct} (hb : b.byRunner = false) (h : s.eng.step b ≠ none) :
    (s.step (.eng b)).isSome = true := by
  cases hm : s.eng.step b with
  | none => exact absurd hm h
  | some m => simp [LocalStack.step, hb, hm]

theorem share_stream (l : LocalRun) (sg : SigState) :
    (l.shareSignal sg).stream = l.stream ∧ (l.shareSignal sg).pc = l.pc ∧ (l.shareSignal sg).child = l.child ∧
    (l.shareSignal sg).exitSeen = l.exitSeen ∧ (l.shareSignal sg).sigSeen = l.sigSeen ∧
    (l.shareSignal sg).kills = l.kills ∧ (l.shareSignal sg).plugins = l.plugins ∧
    (l.shareSignal sg).sig.isNotified = l.sig.isNotified := by
  unfold LocalRun.shareSignal
  split
  · exact ⟨rfl, rfl, rfl, rfl, rfl, rfl, rfl, set_notified _ _⟩
  · exact ⟨rfl, rfl, rfl, rfl, rfl, rfl, rfl, rfl⟩

theorem executing_reading {s : LocalStack} {st : Step} {p : RunPlan} {l : LocalRun} (h : Executing s st p l) :
    s.eng.pc.reading = true ∧ runningStep s.eng.pc = some st := by
  rcases h.1 with ⟨t0, e⟩ | ⟨t0, d, e⟩ <;> rw [e] <;> exact ⟨rfl, rfl⟩

theorem reading_executing {s : LocalStack} {st : Step} {p : RunPlan} {l : LocalRun} (h1 : s.eng.pc.reading = true)
    (h2 : runningStep s.eng.pc = some st) (h3 : s.tasks.getLast? = some (p, l)) : Executing s st p l := by
  refine ⟨?_, h3⟩
  cases hp : s.eng.pc <;> simp only [hp, JobPc.reading, reduceCtorEq] at h1 <;> simp only [hp, runningStep, Option.some.injEq] at h2
  · subst h2; exact .inl ⟨_, rfl⟩
  · subst h2; exact .inr ⟨_, _, rfl⟩

/-- The engine, reading a stream, moves: it goes on, or the step ends, with the result of the stream. -/
theorem eng_from_reading {m m' : JobM} {b : JobAct} (hb : b.byRunner = false) (hr : m.pc.reading = true)
    (hs : m.step b = some m') :
    (m'.pc.reading = true ∧ m'.acc.results = m.acc.results) ∨
    (∃ st t0 d res, b = .recv ∧ m.pc = .select st t0 d ∧ m.stream.result = some res ∧
      m.stream.logs.length ≤ m.stream.index ∧ m' = m.stepDone (stepResult st.id res t0 m.now)) := by
  cases hp : m.pc <;> simp only [hp, JobPc.reading, reduceCtorEq] at hr <;>
    cases b <;> simp only [JobAct.byRunner, reduceCtorEq] at hb <;> simp only [JobM.step, hp, reduceCtorEq] at hs
  all_goals try (simp only [Option.some.injEq] at hs; subst hs; left; exact ⟨by simp [JobPc.reading, hp], rfl⟩)
  case select.recv =>
    split at hs
    · simp only [Option.some.injEq] at hs; subst hs; left; exact ⟨rfl, rfl⟩
    · rename_i st0 t00 d0 st' hpoll
      split at hs
      · rename_i res hres
        simp only [Option.some.injEq] at hs
        right
        refine ⟨_, _, _, res, rfl, rfl, hres, ?_, hs.symm⟩
        simp only [StreamState.poll] at hpoll
        split at hpoll
        · simp at hpoll
        · rename_i hnone; exact List.getElem?_eq_none_iff.1 hnone
      · rename_i hres
        simp only [StreamState.poll] at hpoll
        split at hpoll
        · simp at hpoll
        · simp [hres] at hpoll
    · simp at hs
  all_goals
    repeat' (split at hs)
    all_goals simp only [Option.some.injEq, reduceCtorEq] at hs
    all_goals (subst hs; left; exact ⟨by simp [JobPc.reading, hp], rfl⟩)

end AstroRun
