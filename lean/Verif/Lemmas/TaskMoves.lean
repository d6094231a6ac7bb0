import Verif.Lemmas.LocalEngine

/-! # Lemmas: what a job task does by itself -/

namespace AstroRun
open Spec

/-- What holds of every job task between moves. -/
structure TaskForm (t : SysTask) : Prop where
  init : t.pc = .init → t.results = [] ∧ t.evs = []
  form : ∀ es k, t.pc = .emitting es k → k.afterEmit = true ∧ (∀ c, Event.runnerRun c ∉ es)
  quiet : stepOf t.pc = none → ∀ e ∈ t.pc.pend, otherEvent e = true

theorem TaskForm.fresh (k : Id) (j : Job) : TaskForm { key := k, job := j } :=
  ⟨fun _ => ⟨rfl, rfl⟩, fun es k h => by simp at h, fun _ e he => by simp [SysPc.pend] at he⟩

/-- The moves of a job task that are its own. -/
inductive TaskMove (t t' : SysTask) (b : TaskAct) : Prop
  /-- it is between two steps -/
  | idle (h0 : stepOf t.pc = none) (h1 : stepOf t'.pc = none) (hr : executedSteps t'.results = executedSteps t.results)
      (he : ∃ es, t'.evs ++ t'.pc.pend = t.evs ++ t.pc.pend ++ es ∧ ∀ e ∈ es, otherEvent e = true) (hb : b ≠ .recv)
  /-- it calls the runner -/
  | call (s : Step) (t0 : Time) (ref : Nat) (hpc : t.pc = .queued s t0)
      (ht' : t' = { t with pc := .calling s t0 ref, sig := {}, stream := {}, evs := t.evs ++ [.runnerRun s.toCommand] })
  /-- it goes on reading -/
  | read (h0 : t.pc.reading = true) (h1 : t'.pc.reading = true) (hst : stepOf t'.pc = stepOf t.pc) (hr : t'.results = t.results)
      (hs : t'.stream = t.stream) (hsig : ∀ v, t.sig.signal = some v → t'.sig.signal = some v)
      (he : t'.evs ++ t'.pc.pend = t.evs ++ t.pc.pend) (hb : b ≠ .recv)
  /-- it shows a log entry -/
  | item (s : Step) (t0 d : Time) (ref : Nat) (x : Log) (hpc : t.pc = .select s t0 d ref) (hx : t.stream.logs[t.stream.index]? = some x)
      (ht' : t' = { t.emitThen [.log s.id x] (.handling s t0 ref) with stream := { t.stream with waker := some 0, index := t.stream.index + 1 } })
      (hb : b = .recv)
  /-- the step ends -/
  | done (s : Step) (t0 d : Time) (ref : Nat) (x : RunResult) (now : Time) (hpc : t.pc = .select s t0 d ref) (hx : t.stream.result = some x)
      (hidx : t.stream.logs.length ≤ t.stream.index) (ht' : t' = t.stepDone (stepResult s.id x t0 now)) (hb : b = .recv)

/-- Moves of the job task. -/
theorem task_move {t t' : SysTask} (h : TaskForm t)
    {g g' : SigMgr} {ρ ρ' : SysRun} {now : Time} {i r : Nat} {b : TaskAct} (hb : (SysAct.task r i b).byRunner = false)
    (ht : ρ.tasks[i]? = some t) (hs : Sys.taskStep g ρ now i t b = some (g', ρ')) (ht' : ρ'.tasks[i]? = some t') :
    TaskMove t t' b ∧ TaskForm t' := by
  have idle : stepOf t.pc = none → stepOf t'.pc = none → executedSteps t'.results = executedSteps t.results →
      (∃ es, t'.evs ++ t'.pc.pend = t.evs ++ t.pc.pend ++ es ∧ ∀ e ∈ es, otherEvent e = true) → (t'.pc ≠ .init) →
      (∀ es k, t'.pc = .emitting es k → k.afterEmit = true ∧ (∀ c, Event.runnerRun c ∉ es)) →
      (∀ e ∈ t'.pc.pend, otherEvent e = true) → b ≠ .recv → TaskMove t t' b ∧ TaskForm t' :=
    fun h0 h1 hr he hi hf hq hb => ⟨.idle h0 h1 hr he hb, fun e => absurd e hi, hf, fun _ => hq⟩
  have read : t.pc.reading = true → t'.pc.reading = true → stepOf t'.pc = stepOf t.pc → t'.results = t.results →
      t'.stream = t.stream → (∀ v, t.sig.signal = some v → t'.sig.signal = some v) →
      t'.evs ++ t'.pc.pend = t.evs ++ t.pc.pend →
      (∀ es k, t'.pc = .emitting es k → k.afterEmit = true ∧ (∀ c, Event.runnerRun c ∉ es)) → b ≠ .recv → TaskMove t t' b ∧ TaskForm t' := by
    intro h0 h1 hst hr hs hsig he hf hb
    obtain ⟨st, e1⟩ := reading_stepOf h1
    exact ⟨.read h0 h1 hst hr hs hsig he hb, (fun e => by rw [e] at h1; cases h1), hf, (fun e => by rw [e1] at e; cases e)⟩
  have hi := (List.getElem?_eq_some_iff.1 ht).1
  obtain ⟨t1, e1, _, _, _, _, _, _, _, _, hc⟩ := taskStep_frame hs
  rw [e1] at ht'
  simp only [List.getElem?_set_self hi, Option.some.injEq] at ht'
  subst ht'
  rcases hc with ⟨e, es, k, hpc, rfl, _⟩ | ⟨k, hpc, rfl, _⟩ | ⟨s, t0, ref, hpc, rfl, _⟩ | ⟨s, t0, hpc, rfl, _⟩ |
    ⟨s, t0, d, ref, sg, hpc, rfl, _⟩ | ⟨r, hpc, rfl, _⟩ | ⟨hs, _⟩
  · obtain ⟨f1, f2⟩ := h.form _ _ hpc
    have hbn : b ≠ .recv := by
      rintro rfl
      simp [Sys.taskStep, SysTask.step, hpc] at hs
    have hform : ∀ es' k', SysPc.emitting es k = .emitting es' k' → k'.afterEmit = true ∧ (∀ c, Event.runnerRun c ∉ es') := by
      intro es' k' e
      cases e
      exact ⟨f1, fun c hc => f2 c (by simp [hc])⟩
    have hev : t.evs ++ [e] ++ (SysPc.emitting es k).pend = t.evs ++ t.pc.pend := by simp [hpc, SysPc.pend]
    by_cases hr : t.pc.reading = true
    · have hk : (SysPc.emitting es k).reading = true := by rw [hpc] at hr; cases k <;> simp [SysPc.reading] at hr ⊢
      refine read hr hk ?_ rfl rfl (fun v hv => hv) hev hform hbn
      rw [hpc]; cases k <;> rfl
    · have hst : stepOf t.pc = none := by
        cases hst : stepOf t.pc with
        | none => rfl
        | some st =>
          rcases stepOf_cases hst with e | ⟨t0, ref, e⟩
          · exact absurd e hr
          · rw [hpc] at e; cases e
      refine idle hst ?_ rfl ⟨[], by simpa using hev, by simp⟩ (by simp) hform (fun x hx => ?_) hbn
      · rw [hpc] at hst; cases k <;> first | rfl | simp [stepOf] at hst
      · exact h.quiet hst x (by rw [hpc]; simp only [SysPc.pend, List.cons_append, List.mem_cons] at hx ⊢; exact .inr hx)
  · obtain ⟨f1, f2⟩ := h.form _ _ hpc
    have hbn : b ≠ .recv := by
      rintro rfl
      simp [Sys.taskStep, SysTask.step, hpc] at hs
    have hform : ∀ es' k', k = .emitting es' k' → k'.afterEmit = true ∧ (∀ c, Event.runnerRun c ∉ es') := by
      intro es' k' e
      rw [e] at f1; cases f1
    have hev : t.evs ++ k.pend = t.evs ++ t.pc.pend := by
      cases k <;> first | (cases f1; done) | simp [hpc, SysPc.pend]
    by_cases hr : t.pc.reading = true
    · have hk : k.reading = true := by rw [hpc] at hr; cases k <;> simp [SysPc.reading] at hr ⊢
      refine read hr hk ?_ rfl rfl (fun v hv => hv) hev hform hbn
      rw [hpc]; cases k <;> first | rfl | cases f1
    · have hk : k.reading = false := by
        rw [hpc] at hr; cases k <;> first | rfl | (simp [SysPc.reading] at hr; done) | cases f1
      have hst : stepOf t.pc = none := by
        cases hst : stepOf t.pc with
        | none => rfl
        | some st =>
          rcases stepOf_cases hst with e | ⟨t0, ref, e⟩
          · exact absurd e hr
          · rw [hpc] at e; cases e
      refine idle hst ?_ rfl ⟨[], by simpa using hev, by simp⟩ ?_ hform (fun x hx => ?_) hbn
      · cases k <;> first | rfl | (cases f1; done) | cases hk
      · intro e
        have e' : k = .init := e
        rw [e'] at f1
        cases f1
      · exfalso
        have hx : x ∈ k.pend := hx
        cases k <;> first | (cases f1; done) | (simp [SysPc.pend] at hx)
  · have hst : stepOf t.pc = none := by rw [hpc]; rfl
    refine ⟨.call s t0 ref hpc rfl, fun e => (by cases e), fun es k e => (by cases e), fun e => (by cases e)⟩
  · have hst : stepOf t.pc = none := by rw [hpc]; rfl
    refine idle hst rfl rfl ⟨[], by simp [hpc, SysPc.pend], by simp⟩ (by simp) (by simp) (by simp [SysPc.pend]) ?_
    rintro rfl
    simp [Sys.taskStep, SysTask.step, hpc] at hs
  · have hr : t.pc.reading = true := by rw [hpc]; rfl
    have hsg : (∀ v, t.sig.signal = some v → sg.signal = some v) ∧ b ≠ .recv := by
      unfold Sys.taskStep at hs
      rw [hpc] at hs
      cases b <;> simp only [reduceCtorEq, SysTask.step] at hs
      case jobSignal =>
        refine ⟨fun v hv => ?_, by simp⟩
        split at hs
        · split at hs
          · simp only [Option.some.injEq, Prod.mk.injEq] at hs
            obtain ⟨_, rfl⟩ := hs
            simp only [SysRun.setTask] at e1
            have := congrArg (fun l => l[i]?) e1
            simp only [List.getElem?_set_self hi, Option.some.injEq] at this
            have := congrArg (fun t => t.sig) this
            simp only at this
            rw [← this]
            exact set_monotone _ _ _ hv
          · simp at hs
        · simp at hs
      case timer =>
        refine ⟨fun v hv => ?_, by simp⟩
        rw [hpc] at hs
        simp only at hs
        split at hs
        · simp only [Option.map_some, Option.some.injEq, Prod.mk.injEq] at hs
          obtain ⟨_, rfl⟩ := hs
          simp only [SysRun.setTask] at e1
          have := congrArg (fun l => l[i]?) e1
          simp only [List.getElem?_set_self hi, Option.some.injEq] at this
          have := congrArg (fun t => t.sig) this
          simp only at this
          rw [← this]
          exact set_monotone _ _ _ hv
        · simp at hs
      case recv =>
        exfalso
        rw [hpc] at hs
        simp only at hs
        repeat' (split at hs)
        all_goals simp only [Option.map_some, Option.map_none, Option.some.injEq, Prod.mk.injEq, reduceCtorEq] at hs
        all_goals obtain ⟨_, rfl⟩ := hs
        all_goals simp only [SysRun.setTask] at e1
        all_goals have := congrArg (fun l => l[i]?) e1
        all_goals simp only [List.getElem?_set_self hi, Option.some.injEq] at this
        all_goals have := congrArg (fun t => t.pc) this
        all_goals simp [SysTask.emitThen, SysTask.stepDone] at this
      all_goals
        rw [hpc] at hs
        try simp only [Option.map_none, reduceCtorEq] at hs
      all_goals
        first
          | (simp [SysAct.byRunner] at hb; done)
          | (refine ⟨fun v hv => ?_, by simp⟩
             repeat' (split at hs)
             all_goals simp only [Option.map_some, Option.map_none, Option.some.injEq, Prod.mk.injEq, reduceCtorEq] at hs
             all_goals obtain ⟨_, rfl⟩ := hs
             all_goals simp only [SysRun.setTask] at e1
             all_goals have := congrArg (fun l => l[i]?) e1
             all_goals simp only [List.getElem?_set_self hi, Option.some.injEq] at this
             all_goals have := congrArg (fun t => t.sig) this
             all_goals (try simp only [SysTask.emitThen, SysTask.stepDone] at this)
             all_goals (rw [← this]; exact hv))
    refine read hr rfl ?_ rfl rfl hsg.1 (by simp [hpc, SysPc.pend]) (by simp) hsg.2
    rw [hpc]; rfl
  · have hst : stepOf t.pc = none := by rw [hpc]; rfl
    refine idle hst rfl rfl ⟨[], by simp [hpc, SysPc.pend], by simp⟩ (by simp) (by simp) (by simp [SysPc.pend]) ?_
    rintro rfl
    simp [Sys.taskStep, SysTask.step, hpc] at hs
  · cases b <;> simp only [SysTask.step, reduceCtorEq] at hs
    case check c =>
      split at hs
      · rename_i hpc
        obtain ⟨i1, i2⟩ := h.init hpc
        have hst : stepOf t.pc = none := by rw [hpc]; rfl
        split at hs <;> cases hs
        · refine idle hst rfl rfl ⟨_, by simp [hpc, SysPc.pend, SysTask.emitThen]; rfl, ?_⟩ (by simp [SysTask.emitThen]) ?_ ?_ (by simp)
          · intro e he; simp at he; subst he; rfl
          · intro es k e; simp only [SysTask.emitThen, SysPc.emitting.injEq] at e; obtain ⟨rfl, rfl⟩ := e; exact ⟨rfl, by simp⟩
          · intro e he; simp [SysTask.emitThen, SysPc.pend] at he; subst he; rfl
        · refine idle hst rfl (by rw [i1]) ⟨_, by simp [hpc, SysPc.pend, SysTask.emitThen]; rfl, ?_⟩ (by simp [SysTask.emitThen]) ?_ ?_ (by simp)
          · intro e he; simp at he; rcases he with rfl | rfl <;> rfl
          · intro es k e; simp only [SysTask.emitThen, SysPc.emitting.injEq] at e; obtain ⟨rfl, rfl⟩ := e; exact ⟨rfl, by simp⟩
          · intro e he; simp [SysTask.emitThen, SysPc.pend] at he; rcases he with rfl | rfl <;> rfl
      · simp at hs
    case nextStep c s =>
      split at hs
      · rename_i hpc _
        have hst : stepOf t.pc = none := by rw [hpc]; rfl
        split at hs <;> cases hs
        · refine idle hst rfl (executed_skip _ _) ⟨_, by simp [hpc, SysPc.pend, SysTask.emitThen]; rfl, ?_⟩ (by simp [SysTask.emitThen]) ?_ ?_ (by simp)
          · intro e he; simp at he; subst he; rfl
          · intro es k e; simp only [SysTask.emitThen, SysPc.emitting.injEq] at e; obtain ⟨rfl, rfl⟩ := e; exact ⟨rfl, by simp⟩
          · intro e he; simp [SysTask.emitThen, SysPc.pend] at he; subst he; rfl
        · refine idle hst rfl rfl ⟨_, by simp [hpc, SysPc.pend, SysTask.emitThen]; rfl, ?_⟩ (by simp [SysTask.emitThen]) ?_ ?_ (by simp)
          · intro e he; simp at he; rcases he with rfl | rfl <;> rfl
          · intro es k e; simp only [SysTask.emitThen, SysPc.emitting.injEq] at e; obtain ⟨rfl, rfl⟩ := e; exact ⟨rfl, by simp⟩
          · intro e he; simp [SysTask.emitThen, SysPc.pend] at he; rcases he with rfl | rfl <;> rfl
      · simp at hs
    case finishJob =>
      split at hs
      · rename_i hpc _
        have hst : stepOf t.pc = none := by rw [hpc]; rfl
        cases hs
        refine idle hst rfl rfl ⟨_, by simp [hpc, SysPc.pend, SysTask.emitThen]; rfl, ?_⟩ (by simp [SysTask.emitThen]) ?_ ?_ (by simp)
        · intro e he; simp at he; rcases he with rfl | rfl <;> rfl
        · intro es k e; simp only [SysTask.emitThen, SysPc.emitting.injEq] at e; obtain ⟨rfl, rfl⟩ := e; exact ⟨rfl, by simp⟩
        · intro e he; simp [SysTask.emitThen, SysPc.pend] at he; rcases he with rfl | rfl <;> rfl
      · simp at hs
    case enter =>
      split at hs
      · rename_i s t0 ref hpc
        have hr : t.pc.reading = true := by rw [hpc]; rfl
        cases hs
        refine read hr rfl ?_ rfl rfl (fun v hv => hv) (by simp [hpc, SysPc.pend]) (by simp) (by simp)
        rw [hpc]; rfl
      · simp at hs
    case timer =>
      split at hs
      · rename_i s t0 d ref hpc
        have hr : t.pc.reading = true := by rw [hpc]; rfl
        split at hs <;> cases hs
        refine read hr rfl ?_ rfl rfl (fun v hv => set_monotone _ _ _ hv) (by simp [hpc, SysPc.pend]) (by simp) (by simp)
        rw [hpc]; rfl
      · simp at hs
    case recv =>
      split at hs
      · rename_i s t0 d ref hpc
        have hr : t.pc.reading = true := by rw [hpc]; rfl
        split at hs
        · rename_i st' x hpoll
          cases hs
          simp only [StreamState.poll] at hpoll
          split at hpoll
          · rename_i y hy
            simp only [Prod.mk.injEq, PollOut.item.injEq] at hpoll
            obtain ⟨rfl, rfl⟩ := hpoll
            refine ⟨.item s t0 d ref y hpc hy rfl rfl, fun e => by simp [SysTask.emitThen] at e, ?_, fun e => by simp [SysTask.emitThen, stepOf] at e⟩
            intro es k e; simp only [SysTask.emitThen, SysPc.emitting.injEq] at e; obtain ⟨rfl, rfl⟩ := e; exact ⟨rfl, by simp⟩
          · split at hpoll <;> simp at hpoll
        · rename_i hpoll
          cases hx : t.stream.result with
          | none => simp [hx] at hs
          | some x =>
          simp only [hx, Option.some.injEq] at hs
          subst hs
          refine ⟨.done s t0 d ref x now hpc hx ?_ rfl rfl, fun e => by simp [SysTask.stepDone, SysTask.emitThen] at e, ?_, fun _ e he => ?_⟩
          · simp only [StreamState.poll] at hpoll
            split at hpoll
            · simp at hpoll
            · rename_i hnone; exact List.getElem?_eq_none_iff.1 hnone
          · intro es k e
            simp only [SysTask.stepDone, SysTask.emitThen, SysPc.emitting.injEq] at e
            obtain ⟨rfl, rfl⟩ := e
            exact ⟨rfl, fun c hc => by simp at hc⟩
          · simp [SysTask.stepDone, SysTask.emitThen, SysPc.pend] at he
            rcases he with rfl | rfl <;> rfl
        · simp at hs
      · simp at hs
    all_goals simp [SysAct.byRunner] at hb

end AstroRun
