import Verif.Lemmas.LocalStack
import Verif.Props.LocalRun
import Verif.Props.JobMachine
import Verif.Props.Runner

/-! # C87–C89: a job on the local runner, end to end

Schedules are arbitrary interleavings of the engine's task, API users, the clock, all tasks the runner has spawned for
the job and their processes, including every failure of the operating system. -/

namespace AstroRun
open Spec

namespace StackEx
/-- A runner without plugins on a Linux machine. -/
def setup : LocalSetup := { os := "linux", arch := "x86_64", workingDirectory := "/srv" }
/-- The job of `MachineEx` is started, its first step handed to the runner, its container started. -/
def go : List StackAct :=
  [.eng (.check true), .eng (.nextStep true (MachineEx.st 0)), .eng .call, .spawned (fun _ => []) [], .eng .enter,
    .loc 0 .begin_, .loc 0 .mkdirOk, .loc 0 .entryOk, .loc 0 .spawnOk]
/-- The process writes a line and exits with 3; everything is read and reported. -/
def normal : List StackAct :=
  go ++ [.loc 0 (.childOut "a"), .loc 0 .readOut, .eng .recv, .loc 0 (.exit (some 3)), .loc 0 .closeOut,
    .loc 0 .closeErr, .eng .enter, .loc 0 .readErr]
/-- What is left to do then. -/
def normalRest : List StackAct := [.loc 0 .waitOk, .eng .recv]
/-- The state a schedule leads to. -/
def after (acts : List StackAct) : LocalStack :=
  (runs LocalStack.step (LocalStack.initial setup MachineEx.job 0) acts).getD (LocalStack.initial setup MachineEx.job 0)
/-- The step is executed, nothing is unread. -/
def quiet : List StackAct := go ++ [.loc 0 (.childOut "a"), .loc 0 .readOut, .eng .recv, .eng .enter]
/-- What the engine and the task do when the job is cancelled. -/
def stop : List StackAct :=
  [.eng .jobSignal, .loc 0 .sigReady, .eng .enter, .loc 0 .killDone, .eng .recv]
/-- What they do when the step times out. -/
def expire : List StackAct :=
  [.eng .timer, .loc 0 .sigReady, .eng .enter, .loc 0 .killDone, .eng .recv]
end StackEx

/-! ## C87: a step ends when, and as, its process ended -/

/-- **C87** Whatever happens, the engine of a job on the local runner does what it does with any runner, and each task
of the runner what it does for any engine; every theorem about jobs (`JobReach`) and about executions by the local
runner (`LocalReach`) holds of the two together. -/
theorem C87_both_views (cfg : LocalSetup) (job : Job) (t : Time) (acts : List StackAct) (s : LocalStack)
    (h : StackReach cfg job t acts s) :
    (∃ ja, JobReach job t ja s.eng) ∧
    ∀ (i : Nat) (p : RunPlan) (l : LocalRun), s.tasks[i]? = some (p, l) →
      ∃ la, LocalReach p cfg.plugins.length la l :=
  ⟨(stackInv_reach h).eng, (stackInv_reach h).tasks⟩

/-- **C87** When a step ends, its recorded result is the one the exit status of its process, or the signal that
stopped it, calls for, and observers were shown exactly the log the task wrote, in order; the task was running the
plan for this step. -/
theorem C87_result (cfg : LocalSetup) (job : Job) (t : Time) (acts : List StackAct) (s s' : LocalStack)
    (h : StackReach cfg job t acts s) (st : Step) (p : RunPlan) (l : LocalRun) (hex : Executing s st p l)
    (a : StackAct) (hs : s.step a = some s') (hend : s'.eng.pc = .next) :
    ∃ (pre : List Event) (r : StepRunResult), EndedWith s s' r ∧ r.id = st.id ∧
      Reports (expectedResult l.exitSeen l.sigSeen) r ∧
      s'.eng.acc.trace = pre ++ [.runStep st, .stepState st.id .queued, .runnerRun st.toCommand,
        .stepState st.id .inProgress] ++ l.stream.logs.map (.log st.id) ++
        [.stepState st.id r.state, .stepCompleted r] ∧
      PlanFor cfg st p ∧
      (∀ c, l.exitSeen = some c → ∃ ch, l.child = some ch ∧ ch.exit = some c) ∧
      (∀ v, l.sigSeen = some v → s.eng.sig.signal = some v) := by
  have hi := stackInv_reach h
  obtain ⟨hr, hst⟩ := executing_reading hex
  obtain ⟨p0, l0, e1, e2, e3, e4, st0, e5, e6⟩ := hi.link hr
  rw [hex.2, Option.some.injEq, Prod.mk.injEq] at e1
  obtain ⟨rfl, rfl⟩ := e1
  rw [hst, Option.some.injEq] at e5
  subst e5
  have hcase : ∃ b, a = .eng b ∧ b.byRunner = false ∧ s.eng.step b = some s'.eng := by
    cases a with
    | eng b => obtain ⟨h1, h2, _⟩ := last_eng hex.2 hs; exact ⟨b, rfl, h1, h2⟩
    | spawned past envs =>
      simp only [LocalStack.step] at hs
      split at hs
      · rename_i hp; simp [hp, JobPc.reading] at hr
      · simp at hs
    | loc i b =>
      have : s'.eng.pc = s.eng.pc := by
        by_cases hk : i + 1 = s.tasks.length
        · obtain ⟨l', k1, _, _, _, k2⟩ := last_own hex.2 hk hs
          obtain ⟨stt, k3, _⟩ := absorb_spec hr k1 e2 e3
          rw [k2, if_pos hr, k3]
        · rw [(last_other hex.2 hk hs).1]
      rw [this] at hend
      simp [hend, JobPc.reading] at hr
    | others mem => cases hs; have hend : s.eng.pc = .next := hend; simp [hend, JobPc.reading] at hr
  obtain ⟨b, rfl, hb, hstep⟩ := hcase
  rcases eng_from_reading hb hr hstep with ⟨h1, _⟩ | ⟨st1, t0, d, res, rfl, hpc, hres, hidx, hm⟩
  · simp [hend, JobPc.reading] at h1
  rw [hpc] at hst
  simp only [runningStep, Option.some.injEq] at hst
  subst hst
  obtain ⟨ja, hja⟩ := hi.eng
  have hres' : l.stream.result = some res := by rw [e3]; exact hres
  obtain ⟨la, hla⟩ := hi.tasks _ p l (getLast_index hex.2)
  obtain ⟨f1, f2, f3⟩ := C63_result_partial p _ la l hla res hres'
  have hpi := (pcInv_run hja).1
  simp only [PcInv, hpc] at hpi
  obtain ⟨⟨b, ps, st2, c, _, _, _, hacc⟩, _⟩ := hpi
  have hall : s.eng.stream.logs.take s.eng.stream.index = l.stream.logs := by
    rw [List.take_of_length_le hidx, e2]
  rw [hall] at hacc
  refine ⟨(loopAcc job.id ps).trace, stepResult st1.id res t0 s.eng.now, ⟨hend, by rw [hm]; rfl⟩, ?_, ?_, ?_, e6, f2, ?_⟩
  · cases res <;> rfl
  · rw [← f1]
    cases res <;> exact ⟨rfl, rfl⟩
  · rw [hm]
    simp only [JobM.stepDone, hacc]
    cases res <;> simp [stepResult]
  · intro v hv
    rw [← e4]
    exact f3 v hv

/-- How much the engine and the task have left to do, as long as nothing else happens. -/
def stackWork (m : JobM) (l : LocalRun) : Nat :=
  3 * l.work + 2 * (m.stream.logs.length - m.stream.index) +
  (match m.pc with
    | .handling _ _ => 3
    | .select _ _ d => 2 + if d ≤ m.now then 2 else 0
    | _ => 0) +
  (match m.jobSig with
    | some js => if js.signal.isSome && !js.isNotified then 2 else 0
    | none => 0)

theorem eng_work {m m' : JobM} {b : JobAct} {l l' : LocalRun} (hb : b = .enter ∨ b = .timer ∨ b = .jobSignal ∨ b = .recv)
    (hw : l'.work = l.work) (ht : ∀ st, runningStep m.pc = some st → 0 < st.timeout) (hs : m.step b = some m') :
    stackWork m' l' < stackWork m l ∧ (∀ st, runningStep m'.pc = some st → 0 < st.timeout) := by
  rcases hb with rfl | rfl | rfl | rfl <;> simp only [JobM.step] at hs
  · split at hs <;> simp only [Option.some.injEq, reduceCtorEq] at hs
    rename_i st t0 hp
    have := ht st (by rw [hp]; rfl)
    subst hs
    refine ⟨?_, fun st' h => ht st' (by rw [hp]; exact h)⟩
    have hn : ¬ (m.now + st.timeout ≤ m.now) := Nat.not_le.2 (Nat.lt_add_of_pos_right this)
    simp only [stackWork, hp, hw, hn, if_false]
    omega
  · split at hs
    · rename_i st t0 d hp
      split at hs <;> simp only [Option.some.injEq, reduceCtorEq] at hs
      rename_i hd
      subst hs
      refine ⟨?_, fun st' h => ht st' (by rw [hp]; exact h)⟩
      simp only [stackWork, hp, hw, if_pos hd]
      omega
    · simp at hs
  · split at hs
    · rename_i st t0 d js hp hjs
      split at hs <;> simp only [Option.some.injEq, reduceCtorEq] at hs
      rename_i js' v hpoll
      obtain ⟨h1, h2, h3⟩ := poll_some hpoll
      subst hs
      refine ⟨?_, fun st' h => ht st' (by rw [hp]; exact h)⟩
      simp only [stackWork, hp, hjs, hw, h3, h1, h2]
      simp only [Option.isSome_some, Bool.not_true, Bool.and_false, Bool.not_false, Bool.and_true, if_true,
        Bool.false_eq_true, if_false]
      omega
    · simp at hs
  · split at hs
    · rename_i st t0 d hp
      split at hs
      · rename_i st' x hpoll
        simp only [Option.some.injEq] at hs
        subst hs
        refine ⟨?_, fun st' h => ht st' (by rw [hp]; exact h)⟩
        have : st'.logs = m.stream.logs ∧ st'.index = m.stream.index + 1 ∧ m.stream.index < m.stream.logs.length := by
          simp only [StreamState.poll] at hpoll
          split at hpoll
          · rename_i hsome
            simp only [Prod.mk.injEq] at hpoll
            rw [← hpoll.1]
            exact ⟨rfl, rfl, (List.getElem?_eq_some_iff.1 hsome).1⟩
          · split at hpoll <;> simp at hpoll
        simp only [stackWork, hp, hw, JobM.emit, this.1, this.2.1]
        split <;> omega
      · split at hs <;> simp only [Option.some.injEq] at hs <;> subst hs
        · refine ⟨?_, by simp [JobM.stepDone, runningStep]⟩
          simp only [stackWork, hp, hw, JobM.stepDone]
          omega
        · refine ⟨?_, by simp [runningStep]⟩
          simp only [stackWork, hp, hw]
          omega
      · simp at hs
    · simp at hs

theorem share_work (l : LocalRun) (sg : SigState) : (l.shareSignal sg).work = l.work := by
  obtain ⟨_, h2, h3, _, _, _, h7, _⟩ := share_stream l sg
  simp only [LocalRun.work, unreadOut, unreadErr, h2, h3, h7]

/-- One undisturbed move. -/
theorem stack_work {cfg : LocalSetup} {job : Job} {t : Time} {s s' : LocalStack} {a : StackAct} {p : RunPlan} {l : LocalRun}
    (hi : StackInv cfg job t s) (hl : s.tasks.getLast? = some (p, l))
    (ht : ∀ st, runningStep s.eng.pc = some st → 0 < st.timeout) (hs : s.step a = some s')
    (ha : isWork (s.tasks.length - 1) a = true ∨ isElsewhere (s.tasks.length - 1) a = true) :
    ∃ l', s'.tasks.getLast? = some (p, l') ∧ s'.tasks.length = s.tasks.length ∧
      (∀ st, runningStep s'.eng.pc = some st → 0 < st.timeout) ∧
      stackWork s'.eng l' + (if isWork (s.tasks.length - 1) a then 1 else 0) ≤ stackWork s.eng l := by
  have hlen : 0 < s.tasks.length := by
    have := (List.getElem?_eq_some_iff.1 (getLast_index hl)).1
    omega
  cases a with
  | eng b =>
    obtain ⟨h1, h2, h3, h4⟩ := last_eng hl hs
    have hb : b = .enter ∨ b = .timer ∨ b = .jobSignal ∨ b = .recv := by
      cases b <;> simp [isWork, isElsewhere] at ha <;> simp
    have hw : isWork (s.tasks.length - 1) (.eng b) = true := by rcases hb with rfl | rfl | rfl | rfl <;> rfl
    refine ⟨_, h4, h3, ?_⟩
    obtain ⟨k1, k2⟩ := eng_work (l := l) (l' := if s'.eng.pc.reading then l.shareSignal s'.eng.sig else l) hb
      (by split <;> simp [share_work]) ht h2
    refine ⟨k2, ?_⟩
    rw [if_pos hw]
    omega
  | spawned past envs => simp [isWork, isElsewhere] at ha
  | loc i b =>
    by_cases hk : i + 1 = s.tasks.length
    · obtain ⟨l', k1, k2, k3, k4, k5⟩ := last_own hl hk hs
      have hik : i = s.tasks.length - 1 := by omega
      have hw : isWork (s.tasks.length - 1) (.loc i b) = true := by
        rcases ha with ha | ha
        · exact ha
        · simp [isElsewhere, hik] at ha
      have ho : b.own = true := by
        simp only [isWork, Bool.and_eq_true] at hw
        exact hw.1.2
      obtain ⟨la, hla⟩ := hi.tasks _ p l (getLast_index hl)
      have hlt := work_step (local_reach hla).2 ho k1
      refine ⟨l', k4, k3, ?_⟩
      rw [if_pos hw]
      cases hr : s.eng.pc.reading with
      | false =>
        rw [hr] at k5
        simp only [Bool.false_eq_true, if_false] at k5
        rw [k5]
        refine ⟨ht, ?_⟩
        simp only [stackWork]
        omega
      | true =>
        obtain ⟨p0, l0, e1, e2, e3, _⟩ := hi.link hr
        rw [hl, Option.some.injEq, Prod.mk.injEq] at e1
        obtain ⟨rfl, rfl⟩ := e1
        obtain ⟨stt, j1, j2, j3, j4, _⟩ := absorb_spec hr k1 e2 e3
        rw [hr] at k5
        simp only [if_true] at k5
        rw [k5, j1]
        refine ⟨ht, ?_⟩
        have hlog : stt.logs.length ≤ s.eng.stream.logs.length + 1 := by
          rw [j2, ← e2]
          cases wrote_step k1 with
          | log x h1 _ => simp [h1]
          | ended r h1 _ _ => simp [h1]
          | nothing h1 _ => simp [h1]
        simp only [stackWork, j4]
        omega
    · obtain ⟨h1, h2, h3⟩ := last_other hl hk hs
      refine ⟨l, h3, h2, by rw [h1]; exact ht, ?_⟩
      have hw : isWork (s.tasks.length - 1) (.loc i b) = false := by
        have : i ≠ s.tasks.length - 1 := by omega
        simp [isWork, this]
      rw [h1, hw]
      simp
  | others mem =>
    cases hs
    exact ⟨l, hl, rfl, ht, by simp [isWork]⟩

/-- **C87** Unless time passes, an API user acts or the process does something, the engine and the task make only
finitely many moves: from every reachable state in which a step with a positive timeout is executed there is a bound
on them, whatever the runner's other tasks do. -/
theorem C87_bounded (cfg : LocalSetup) (job : Job) (t : Time) (acts : List StackAct) (s : LocalStack)
    (h : StackReach cfg job t acts s) (st : Step) (p : RunPlan) (l : LocalRun) (hex : Executing s st p l)
    (ht : 0 < st.timeout) :
    ∃ n, ∀ more s', Undisturbed (s.tasks.length - 1) more → runs LocalStack.step s more = some s' →
      (more.filter (isWork (s.tasks.length - 1))).length ≤ n := by
  have ht' : ∀ st', runningStep s.eng.pc = some st' → 0 < st'.timeout := by
    intro st' h'
    rw [(executing_reading hex).2, Option.some.injEq] at h'
    rw [← h']; exact ht
  have hl := hex.2
  have hi := stackInv_reach h
  clear h hex ht
  refine ⟨stackWork s.eng l, fun more => ?_⟩
  induction more generalizing s l with
  | nil => simp
  | cons a more ih =>
    intro s' hu hrun
    simp only [runs] at hrun
    cases hs : s.step a with
    | none => simp [hs] at hrun
    | some s1 =>
      rw [hs] at hrun
      obtain ⟨l1, k1, k2, k3, k4⟩ := stack_work hi hl ht' hs (hu a (by simp))
      have := ih s1 l1 k3 k1 (stackInv_step hi hs) s' (fun x hx => k2 ▸ hu x (by simp [hx])) hrun
      rw [k2] at this
      simp only [List.filter_cons]
      split at k4 <;> simp only [*, if_true, if_false, List.length_cons, Bool.false_eq_true] <;> omega

/-- **C87** and once the process is over, they do not stop before the step has ended: as long as the step is executed
and its process, if there is one, has exited and closed its pipes, the engine or the task can move.  With
`C87_bounded` and `C87_result`: a step whose process ends, ends, with the process's exit status. -/
theorem C87_progress (cfg : LocalSetup) (job : Job) (t : Time) (acts : List StackAct) (s : LocalStack)
    (h : StackReach cfg job t acts s) (st : Step) (p : RunPlan) (l : LocalRun) (hex : Executing s st p l)
    (hover : ProcessOver l) :
    ∃ a, isWork (s.tasks.length - 1) a = true ∧ (s.step a).isSome = true := by
  have hi := stackInv_reach h
  obtain ⟨hr, hst⟩ := executing_reading hex
  obtain ⟨p0, l0, e1, e2, e3, _⟩ := hi.link hr
  rw [hex.2, Option.some.injEq, Prod.mk.injEq] at e1
  obtain ⟨rfl, rfl⟩ := e1
  rcases hex.1 with ⟨t0, hp⟩ | ⟨t0, d, hp⟩
  · exact ⟨.eng .enter, rfl, eng_enabled rfl (by simp [JobM.step, hp])⟩
  · cases hres : l.stream.result with
    | some r =>
      refine ⟨.eng .recv, rfl, eng_enabled rfl ?_⟩
      have : s.eng.stream.result = some r := by rw [← e3]; exact hres
      simp only [JobM.step, hp, StreamState.poll, this]
      cases s.eng.stream.logs[s.eng.stream.index]? <;> simp
    | none =>
      obtain ⟨la, hla⟩ := hi.tasks _ p l (getLast_index hex.2)
      have hns : ¬ TaskStuck l := by
        intro hstuck
        obtain ⟨r, hr⟩ := C63_ends p _ la l hla hstuck hover
        simp [hres] at hr
      have : ∃ a : LocalAct, a.own = true ∧ isFailure a = false ∧ l.step a ≠ none := by
        apply Classical.byContradiction
        intro hn
        exact hns fun a h1 h2 => Classical.byContradiction fun h3 => hn ⟨a, h1, h2, h3⟩
      obtain ⟨a, h1, h2, h3⟩ := this
      exact ⟨.loc (s.tasks.length - 1) a, by simp [isWork, h1, h2], loc_enabled hex.2 h1 h3⟩

/-- The task of the example. -/
def StackEx.task (acts : List StackAct) : LocalRun :=
  ((StackEx.after acts).tasks.getLast?.map Prod.snd).getD (LocalRun.initial (LocalEx.plan .docker) 0)

example : StackReach StackEx.setup MachineEx.job 0 StackEx.normal (StackEx.after StackEx.normal) ∧
    (∃ p, Executing (StackEx.after StackEx.normal) (MachineEx.st 0) p (StackEx.task StackEx.normal)) ∧
    0 < (MachineEx.st 0).timeout ∧ ProcessOver (StackEx.task StackEx.normal) ∧
    Undisturbed ((StackEx.after StackEx.normal).tasks.length - 1) StackEx.normalRest ∧
    StackReach StackEx.setup MachineEx.job 0 (StackEx.normal ++ StackEx.normalRest)
      (StackEx.after (StackEx.normal ++ StackEx.normalRest)) ∧
    EndedWith (StackEx.after StackEx.normal) (StackEx.after (StackEx.normal ++ StackEx.normalRest))
      { id := ⟨"w", "j", 0⟩, state := .failed, exitCode := some 3, startedAt := some 0, completedAt := some 0 } ∧
    (StackEx.task (StackEx.normal ++ StackEx.normalRest)).exitSeen = some (some 3) ∧
    (StackEx.task StackEx.normal).stream.logs = [Log.ofLog "a"] := by
  refine ⟨by rfl, ⟨_, .inr ⟨0, 2, by rfl⟩, by rfl⟩, by decide, ?_, ?_, by rfl, ⟨by rfl, by rfl⟩, by rfl, by rfl⟩
  · intro ch hch
    have : (StackEx.task StackEx.normal).child =
      some { outQ := [], errQ := [], outOpen := false, errOpen := false, exit := some (some 3) } := by rfl
    rw [this, Option.some.injEq] at hch
    subst hch
    simp
  · have : (StackEx.after StackEx.normal).tasks.length = 1 := by rfl
    rw [this]
    intro a ha
    simp only [StackEx.normalRest, List.mem_cons, List.not_mem_nil, or_false] at ha
    rcases ha with rfl | rfl <;> exact .inl rfl

/-- **C87** The task runs this step: without plugins in the runner, its process is the one for the step's command, and
it is a container unless the step asks for the host. -/
theorem C87_plan (cfg : LocalSetup) (job : Job) (t : Time) (acts : List StackAct) (s : LocalStack)
    (h : StackReach cfg job t acts s) (st : Step) (p : RunPlan) (l : LocalRun) (hex : Executing s st p l)
    (hpl : cfg.plugins = []) :
    (∃ envs, p.process = stepProcess cfg.os cfg.arch cfg.workingDirectory st.toCommand cfg.event envs) ∧
    (l.kind = .host ↔ AsksForHost cfg.os cfg.arch st.toCommand) ∧
    l.name = (pathsOf cfg.workingDirectory cfg.event st.id).dockerName := by
  have hi := stackInv_reach h
  obtain ⟨hr, hst⟩ := executing_reading hex
  obtain ⟨p0, l0, e1, e2, e3, e4, st0, e5, past, mem, envs, e6⟩ := hi.link hr
  rw [hex.2, Option.some.injEq, Prod.mk.injEq] at e1
  obtain ⟨rfl, rfl⟩ := e1
  rw [hst, Option.some.injEq] at e5
  subst e5
  obtain ⟨la, hla⟩ := hi.tasks _ p l (getLast_index hex.2)
  have ho := (local_reach hla).2
  rw [ho.kind, ho.name]
  simp only [startRun, hpl, pluginsBefore] at e6
  rw [e6]
  exact ⟨⟨envs, rfl⟩, createExecutor_host .., rfl⟩

/-! ## C88, C89: cancelling and timing out a step -/

/-- The signal of a task whose process runs has been set to `v`. -/
structure Struck (v : Signal) (l : LocalRun) : Prop where
  alive : ∃ ch, l.child = some ch ∧ ch.exit = none
  unseen : l.exitSeen = none
  sig : l.sig.signal = some v
  stage : (l.pc = .select .reading ∨ l.pc = .select .waiting) ∨ l.sigSeen = some v

theorem alive_step {l l' : LocalRun} {b : LocalAct} (hf : isFailure b = false) (he : ∀ c, b ≠ .exit c)
    (hn : l.pc ≠ .select .notStarted) (h : ∃ ch, l.child = some ch ∧ ch.exit = none) (hu : l.exitSeen = none)
    (hs : l.step b = some l') : (∃ ch, l'.child = some ch ∧ ch.exit = none) ∧ l'.exitSeen = none := by
  obtain ⟨ch, h1, h2⟩ := h
  cases b <;> simp only [isFailure, reduceCtorEq] at hf <;> simp only [LocalRun.step] at hs
  case exit c => exact absurd rfl (he c)
  case spawnOk => simp [hn] at hs
  case waitOk => simp [h1, h2] at hs
  all_goals
    repeat' (split at hs)
    all_goals simp only [Option.some.injEq, reduceCtorEq] at hs
    all_goals subst hs
    all_goals simp_all

theorem struck_step {v : Signal} {l l' : LocalRun} {b : LocalAct} (hres : ResOk l) (h : Struck v l)
    (hf : isFailure b = false) (he : ∀ c, b ≠ .exit c) (hne : ∀ w, b ≠ .setSignal w) (hs : l.step b = some l') :
    Struck v l' := by
  have hn : l.pc ≠ .select .notStarted := by
    intro hp
    rcases h.stage with h | h
    · simp [hp] at h
    · simp [ResOk, hp, h] at hres
  obtain ⟨k1, k2⟩ := alive_step hf he hn h.alive h.unseen hs
  refine ⟨k1, k2, by rw [signal_step hne hs]; exact h.sig, ?_⟩
  have hsig := h.sig
  have hst := h.stage
  obtain ⟨ch, c1, c2⟩ := h.alive
  cases b <;> simp only [isFailure, reduceCtorEq] at hf <;> simp only [LocalRun.step] at hs
  case sigReady =>
    split at hs
    · split at hs
      · rename_i sg w hp
        have := (poll_some hp).2.1
        rw [hsig, Option.some.injEq] at this
        subst this
        split at hs <;> simp only [Option.some.injEq] at hs <;> subst hs <;> exact .inr rfl
      · simp at hs
    · simp at hs
  case setSignal w => exact absurd rfl (hne w)
  all_goals
    repeat' (split at hs)
    all_goals simp only [Option.some.injEq, reduceCtorEq] at hs
    all_goals subst hs
    all_goals simp_all

theorem struck_share {v : Signal} {l : LocalRun} (h : Struck v l) (sg : SigState) : Struck v (l.shareSignal sg) := by
  obtain ⟨_, h2, h3, h4, h5, _⟩ := share_stream l sg
  refine ⟨by rw [h3]; exact h.alive, by rw [h4]; exact h.unseen, ?_, by rw [h2, h5]; exact h.stage⟩
  unfold LocalRun.shareSignal
  split
  · simp [set_signal, h.sig]
  · exact h.sig

/-- A struck task can move, or has ended the stream. -/
theorem struck_progress {v : Signal} {l : LocalRun} {p : RunPlan} {plugins : Nat} (hres : ResOk l)
    (hout : OutOk p plugins l) (h : Struck v l) :
    l.stream.result.isSome = true ∨ ∃ b : LocalAct, b.own = true ∧ isFailure b = false ∧ l.step b ≠ none := by
  have hsel : ∀ c, l.pc = .select c → l.sigSeen = none →
      ∃ b : LocalAct, b.own = true ∧ isFailure b = false ∧ l.step b ≠ none := by
    intro c hc hsn
    refine ⟨.sigReady, rfl, rfl, ?_⟩
    have := hout.fresh
    rw [hsn] at this
    simp only [LocalRun.step, hc, SigState.poll, this, h.sig, Option.isSome_none, Bool.false_eq_true, if_false]
    split <;> simp
  cases hpc : l.pc with
  | start | mkdir | entry =>
    rcases h.stage with e | e
    · simp [hpc] at e
    · simp [ResOk, hpc, e] at hres
  | select c =>
    cases c with
    | notStarted | reading | waiting =>
      simp only [ResOk, hpc] at hres
      exact .inr (hsel _ hpc hres.2.2)
    | okDone =>
      simp only [ResOk, hpc] at hres
      obtain ⟨c, e, _⟩ := hres
      simp [h.unseen] at e
  | kill v => exact .inr ⟨.killDone, rfl, rfl, by simp [LocalRun.step, hpc]⟩
  | remove => exact .inr ⟨.removeOk, rfl, rfl, by simp [LocalRun.step, hpc]⟩
  | returned => exact .inr ⟨.finish, rfl, rfl, by simp [LocalRun.step, hpc]⟩
  | hooks n => simp only [ResOk, hpc] at hres; left; rw [hres]; rfl
  | done => simp only [ResOk, hpc] at hres; left; rw [hres]; rfl

/-- The result of a struck task. -/
theorem struck_result {v : Signal} {l : LocalRun} {p : RunPlan} {plugins : Nat} {la : List LocalAct}
    (hla : LocalReach p plugins la l) (h : Struck v l) {res : RunResult} (hr : l.stream.result = some res) :
    res = signalResult v ∧ (p.kind = .docker → l.kills = ["docker kill " ++ p.dirs.dockerName]) := by
  have hsn : l.sigSeen = some v := by
    rcases h.stage with (e | e) | e
    · have := (local_reach hla).1
      simp only [ResOk, e] at this
      simp [this.1] at hr
    · have := (local_reach hla).1
      simp only [ResOk, e] at this
      simp [this.1] at hr
    · exact e
  refine ⟨?_, fun hk => C71_docker_killed_partial p plugins la l hla hk (by simp [hr]) h.unseen (by simp [hsn])⟩
  have := (C63_result_partial p plugins la l hla res hr).1
  rw [h.unseen, hsn] at this
  rw [this]
  cases v <;> rfl

/-- Where the execution of a struck step by task number `n` is: still going, or ended as the signal says; `rs` are the
job's results before. -/
inductive StruckAt (v : Signal) (st : Step) (p : RunPlan) (n : Nat) (rs : List StepRunResult) (s : LocalStack) : Prop
  | going (l : LocalRun) (hex : Executing s st p l) (hlen : s.tasks.length = n) (hrs : s.eng.acc.results = rs)
      (h : Struck v l)
  | ended (l : LocalRun) (r : StepRunResult) (hpc : s.eng.pc = .next) (hl : s.tasks.getLast? = some (p, l))
      (hlen : s.tasks.length = n) (hrs : s.eng.acc.results = rs ++ [r]) (hid : r.id = st.id)
      (hrep : Reports (signalResult v) r) (h : Struck v l) (hres : l.stream.result.isSome = true)

theorem spares_own {k i : Nat} {b : LocalAct} (h : sparesTask k (.loc i b) = true) (hi : i = k) :
    isFailure b = false ∧ ∀ c, b ≠ .exit c := by
  subst hi
  cases b <;> simp [sparesTask, isFailure] at h ⊢

theorem struckAt_step {cfg : LocalSetup} {job : Job} {t : Time} {s s' : LocalStack} {a : StackAct} {v : Signal} {st : Step}
    {p : RunPlan} {n : Nat} {rs : List StepRunResult} (hi : StackInv cfg job t s) (h : StruckAt v st p n rs s)
    (ha : sparesTask (n - 1) a = true) (hs : s.step a = some s') : StruckAt v st p n rs s' := by
  cases h with
  | going l hex hlen hrs h =>
    obtain ⟨hr, hst⟩ := executing_reading hex
    obtain ⟨p0, l0, e1, e2, e3, e4, _⟩ := hi.link hr
    rw [hex.2, Option.some.injEq, Prod.mk.injEq] at e1
    obtain ⟨rfl, rfl⟩ := e1
    obtain ⟨la, hla⟩ := hi.tasks _ p l (getLast_index hex.2)
    cases a with
    | eng b =>
      obtain ⟨h1, h2, h3, h4⟩ := last_eng hex.2 hs
      rcases eng_from_reading h1 hr h2 with ⟨g1, g2⟩ | ⟨st1, t0, d, res, rfl, hpc, hres, hidx, hm⟩
      · rw [if_pos g1] at h4
        refine .going _ (reading_executing g1 ?_ h4) (by rw [h3, hlen]) (by rw [g2, hrs]) (struck_share h _)
        rw [(eng_reading h1 h2 g1).2.2.2.2]; exact hst
      · rw [hpc] at hst
        simp only [runningStep, Option.some.injEq] at hst
        subst hst
        have hres' : l.stream.result = some res := by rw [e3]; exact hres
        have hpc' : s'.eng.pc = .next := by rw [hm]; rfl
        rw [hpc'] at h4
        refine .ended l (stepResult st1.id res t0 s.eng.now) hpc' h4 (by rw [h3, hlen]) ?_ ?_ ?_ h (by simp [hres'])
        · rw [hm, ← hrs]; rfl
        · cases res <;> rfl
        · rw [← (struck_result hla h hres').1]
          cases res <;> exact ⟨rfl, rfl⟩
    | spawned past envs =>
      simp only [LocalStack.step] at hs
      split at hs
      · rename_i hp; simp [hp, JobPc.reading] at hr
      · simp at hs
    | loc i b =>
      by_cases hk : i + 1 = s.tasks.length
      · obtain ⟨l', k1, k2, k3, k4, k5⟩ := last_own hex.2 hk hs
        obtain ⟨f1, f2⟩ := spares_own ha (by omega)
        obtain ⟨stt, j1, _⟩ := absorb_spec hr k1 e2 e3
        rw [if_pos hr, j1] at k5
        exact .going l' (reading_executing (by rw [k5]; exact hr) (by rw [k5]; exact hst) k4) (by rw [k3, hlen])
          (by rw [k5]; exact hrs) (struck_step (local_reach hla).1 h f1 f2 k2 k1)
      · obtain ⟨h1, h2, h3⟩ := last_other hex.2 hk hs
        exact .going l (reading_executing (by rw [h1]; exact hr) (by rw [h1]; exact hst) h3) (by rw [h2, hlen])
          (by rw [h1]; exact hrs) h
    | others mem => cases hs; exact .going l hex hlen hrs h
  | ended l r hpc hl hlen hrs hid hrep h hres =>
    obtain ⟨la, hla⟩ := hi.tasks _ p l (getLast_index hl)
    have hr : s.eng.pc.reading = false := by rw [hpc]; rfl
    cases a with
    | eng b =>
      obtain ⟨h1, h2, h3, h4⟩ := last_eng hl hs
      have : s'.eng.pc = .next ∧ s'.eng.acc = s.eng.acc := by
        cases b <;> simp only [sparesTask, JobAct.byRunner, reduceCtorEq] at ha h1 <;>
          simp only [JobM.step, hpc, reduceCtorEq] at h2
        case tick => simp only [Option.some.injEq] at h2; rw [← h2]; exact ⟨rfl, rfl⟩
        case cancel => split at h2 <;> (simp only [Option.some.injEq] at h2; rw [← h2]; exact ⟨rfl, rfl⟩)
      rw [this.1] at h4
      exact .ended l r this.1 h4 (by rw [h3, hlen]) (by rw [this.2, hrs]) hid hrep h hres
    | spawned past envs =>
      simp [LocalStack.step, hpc] at hs
    | loc i b =>
      by_cases hk : i + 1 = s.tasks.length
      · obtain ⟨l', k1, k2, k3, k4, k5⟩ := last_own hl hk hs
        obtain ⟨f1, f2⟩ := spares_own ha (by omega)
        rw [hr] at k5
        simp only [Bool.false_eq_true, if_false] at k5
        obtain ⟨res, hres'⟩ := Option.isSome_iff_exists.1 hres
        exact .ended l' r (by rw [k5]; exact hpc) k4 (by rw [k3, hlen]) (by rw [k5]; exact hrs) hid hrep
          (struck_step (local_reach hla).1 h f1 f2 k2 k1) (by simp [step_result k1 hres'])
      · obtain ⟨h1, h2, h3⟩ := last_other hl hk hs
        exact .ended l r (by rw [h1]; exact hpc) h3 (by rw [h2, hlen]) (by rw [h1]; exact hrs) hid hrep h hres
    | others mem => cases hs; exact .ended l r hpc hl hlen hrs hid hrep h hres

/-- What is said about a step to which signal `v` was sent: `out` is the result it should have. -/
theorem struckAt_claim {cfg : LocalSetup} {job : Job} {t : Time} {s s' : LocalStack} {v : Signal} {st : Step} {p : RunPlan}
    (hi : StackInv cfg job t s') (h : StruckAt v st p s.tasks.length s.eng.acc.results s') :
    (∃ r l', EndedWith s s' r ∧ r.id = st.id ∧ Reports (signalResult v) r ∧ s'.tasks.getLast? = some (p, l') ∧
      (p.kind = .docker → l'.kills = ["docker kill " ++ p.dirs.dockerName])) ∨
    (∃ l', Executing s' st p l' ∧
      ∃ a, isWork (s.tasks.length - 1) a = true ∧ a ≠ .eng .timer ∧ (s'.step a).isSome = true) := by
  cases h with
  | ended l r hpc hl hlen hrs hid hrep h hres =>
    obtain ⟨la, hla⟩ := hi.tasks _ p l (getLast_index hl)
    obtain ⟨res, hres'⟩ := Option.isSome_iff_exists.1 hres
    exact .inl ⟨r, l, ⟨hpc, hrs⟩, hid, hrep, hl, (struck_result hla h hres').2⟩
  | going l hex hlen hrs h =>
    obtain ⟨hr, hst⟩ := executing_reading hex
    obtain ⟨p0, l0, e1, e2, e3, e4, _⟩ := hi.link hr
    rw [hex.2, Option.some.injEq, Prod.mk.injEq] at e1
    obtain ⟨rfl, rfl⟩ := e1
    obtain ⟨la, hla⟩ := hi.tasks _ p l (getLast_index hex.2)
    refine .inr ⟨l, hex, ?_⟩
    rcases hex.1 with ⟨t0, hp⟩ | ⟨t0, d, hp⟩
    · exact ⟨.eng .enter, rfl, by simp, eng_enabled rfl (by simp [JobM.step, hp])⟩
    · rcases struck_progress (local_reach hla).1 (local_reach hla).2 h with hres | ⟨b, h1, h2, h3⟩
      · refine ⟨.eng .recv, rfl, by simp, eng_enabled rfl ?_⟩
        obtain ⟨res, hres⟩ := Option.isSome_iff_exists.1 hres
        have : s'.eng.stream.result = some res := by rw [← e3]; exact hres
        simp only [JobM.step, hp, StreamState.poll, this]
        cases s'.eng.stream.logs[s'.eng.stream.index]? <;> simp
      · rw [← hlen]
        exact ⟨.loc (s'.tasks.length - 1) b, by simp [isWork, h1, h2], by simp, loc_enabled hex.2 h1 h3⟩

/-- A job signal was set and nobody has taken it yet; the process runs. -/
structure Pending (st : Step) (p : RunPlan) (n : Nat) (rs : List StepRunResult) (s : LocalStack) (l : LocalRun) : Prop where
  hex : Executing s st p l
  hlen : s.tasks.length = n
  hrs : s.eng.acc.results = rs
  run : Running l
  nosig : s.eng.sig.signal = none
  job : ∃ js, s.eng.jobSig = some js ∧ js.signal = some .cancel ∧ js.isNotified = false

theorem running_step {l l' : LocalRun} {b : LocalAct} (hf : isFailure b = false) (he : ∀ c, b ≠ .exit c)
    (hne : ∀ w, b ≠ .setSignal w) (hsig : l.sig.signal = none) (h : Running l) (hs : l.step b = some l') : Running l' := by
  obtain ⟨hp, ch, c1, c2⟩ := h
  have hnot : ∀ sg v, l.sig.poll 0 ≠ (sg, some v) := by
    intro sg v e
    have := (poll_some e).2.1
    simp [hsig] at this
  cases b <;> simp only [isFailure, reduceCtorEq] at hf <;> simp only [LocalRun.step] at hs
  case exit c => exact absurd rfl (he c)
  case setSignal w => exact absurd rfl (hne w)
  case sigReady =>
    split at hs
    · split at hs
      · rename_i sg v e; exact absurd e (hnot sg v)
      · simp at hs
    · simp at hs
  all_goals
    repeat' (split at hs)
    all_goals simp only [Option.some.injEq, reduceCtorEq] at hs
    all_goals subst hs
    all_goals simp_all [Running]

theorem running_struck {l : LocalRun} {v : Signal} (hres : ResOk l) (h : Running l) (hsig : l.sig.signal = some v) :
    Struck v l := by
  refine ⟨h.2, ?_, hsig, .inl h.1⟩
  rcases h.1 with e | e <;> (simp only [ResOk, e] at hres; exact hres.2.1)

theorem running_noresult {l : LocalRun} (hres : ResOk l) (h : Running l) : l.stream.result = none := by
  rcases h.1 with e | e <;> (simp only [ResOk, e] at hres; exact hres.1)

theorem running_share {l : LocalRun} (h : Running l) (sg : SigState) : Running (l.shareSignal sg) := by
  obtain ⟨_, h2, h3, _⟩ := share_stream l sg
  simp only [Running, h2, h3]
  exact h

theorem share_none {l : LocalRun} {sg : SigState} (h : sg.signal = none) : l.shareSignal sg = l := by
  simp [LocalRun.shareSignal, h]

theorem share_signal {l : LocalRun} {sg : SigState} {v : Signal} (h : sg.signal = some v) (h0 : l.sig.signal = none) :
    (l.shareSignal sg).sig.signal = some v := by
  simp [LocalRun.shareSignal, h, set_signal, h0]

theorem pending_step {cfg : LocalSetup} {job : Job} {t : Time} {s s' : LocalStack} {a : StackAct} {st : Step} {p : RunPlan}
    {n : Nat} {rs : List StepRunResult} {l : LocalRun} (hi : StackInv cfg job t s) (h : Pending st p n rs s l)
    (ha : sparesTask (n - 1) a = true) (hat : a ≠ .eng .timer) (hs : s.step a = some s') :
    (∃ l', Pending st p n rs s' l') ∨ StruckAt .cancel st p n rs s' := by
  obtain ⟨hr, hst⟩ := executing_reading h.hex
  obtain ⟨p0, l0, e1, e2, e3, e4, _⟩ := hi.link hr
  rw [h.hex.2, Option.some.injEq, Prod.mk.injEq] at e1
  obtain ⟨rfl, rfl⟩ := e1
  obtain ⟨la, hla⟩ := hi.tasks _ p l (getLast_index h.hex.2)
  have hres := (local_reach hla).1
  have hlsig : l.sig.signal = none := by rw [e4]; exact h.nosig
  obtain ⟨js, j1, j2, j3⟩ := h.job
  cases a with
  | eng b =>
    obtain ⟨h1, h2, h3, h4⟩ := last_eng h.hex.2 hs
    rcases eng_from_reading h1 hr h2 with ⟨g1, g2⟩ | ⟨st1, t0, d, res, rfl, hpc, hres', hidx, hm⟩
    · rw [if_pos g1] at h4
      have hst' : runningStep s'.eng.pc = some st := by rw [(eng_reading h1 h2 g1).2.2.2.2]; exact hst
      by_cases hb : b = .jobSignal
      · subst hb
        right
        have hsig' : s'.eng.sig.signal = some .cancel := by
          simp only [JobM.step] at h2
          split at h2
          · rename_i js' hp hjs'
            rw [j1, Option.some.injEq] at hjs'
            subst hjs'
            simp only [SigState.poll, j3, j2, Bool.false_eq_true, if_false, Option.some.injEq] at h2
            rw [← h2]
            simp [set_signal, h.nosig]
          · simp at h2
        have hex' := reading_executing g1 hst' h4
        refine .going _ hex' (by rw [h3, h.hlen]) (by rw [g2, h.hrs]) ?_
        obtain ⟨la', hla'⟩ := (stackInv_step hi hs).tasks _ p _ (getLast_index h4)
        exact running_struck (local_reach hla').1 (running_share h.run _) (share_signal hsig' hlsig)
      · left
        have key : s'.eng.sig = s.eng.sig ∧
            ∃ js', s'.eng.jobSig = some js' ∧ js'.signal = some .cancel ∧ js'.isNotified = false := by
          cases b <;> simp only [JobAct.byRunner, reduceCtorEq, ne_eq, not_true_eq_false] at h1 hb hat <;>
            simp only [JobM.step] at h2
          case cancel =>
            rw [j1] at h2
            simp only [Option.some.injEq] at h2
            rw [← h2]
            exact ⟨rfl, _, rfl, by simp [set_signal, j2], by rw [set_notified]; exact j3⟩
          all_goals
            repeat' (split at h2)
            all_goals simp only [Option.some.injEq, reduceCtorEq] at h2
            all_goals rw [← h2]
            all_goals first
              | exact ⟨rfl, js, j1, j2, j3⟩
              | (rename_i hp; simp [hp, JobPc.reading] at hr; done)
              | (rename_i hp _; simp [hp, JobPc.reading] at hr; done)
              | (rename_i hp _ _; simp [hp, JobPc.reading] at hr; done)
              | (simp_all [JobPc.reading]; done)
        rw [share_none (by rw [key.1]; exact h.nosig)] at h4
        exact ⟨l, reading_executing g1 hst' h4, by rw [h3, h.hlen], by rw [g2, h.hrs], h.run,
          by rw [key.1]; exact h.nosig, key.2⟩
    · have := running_noresult hres h.run
      rw [e3, hres'] at this
      simp at this
  | spawned past envs =>
    simp only [LocalStack.step] at hs
    split at hs
    · rename_i hp; simp [hp, JobPc.reading] at hr
    · simp at hs
  | loc i b =>
    left
    by_cases hk : i + 1 = s.tasks.length
    · obtain ⟨l', k1, k2, k3, k4, k5⟩ := last_own h.hex.2 hk hs
      have hl := h.hlen
      obtain ⟨f1, f2⟩ := spares_own ha (by omega)
      obtain ⟨stt, j1', _⟩ := absorb_spec hr k1 e2 e3
      rw [if_pos hr, j1'] at k5
      exact ⟨l', reading_executing (by rw [k5]; exact hr) (by rw [k5]; exact hst) k4, by rw [k3, h.hlen],
        by rw [k5]; exact h.hrs, running_step f1 f2 k2 hlsig h.run k1, by rw [k5]; exact h.nosig,
        by rw [k5]; exact ⟨js, j1, j2, j3⟩⟩
    · obtain ⟨h1, h2, h3⟩ := last_other h.hex.2 hk hs
      exact ⟨l, reading_executing (by rw [h1]; exact hr) (by rw [h1]; exact hst) h3, by rw [h2, h.hlen],
        by rw [h1]; exact h.hrs, h.run, by rw [h1]; exact h.nosig, by rw [h1]; exact ⟨js, j1, j2, j3⟩⟩
  | others mem =>
    cases hs
    exact .inl ⟨l, h.hex, h.hlen, h.hrs, h.run, h.nosig, h.job⟩

/-- **C88** Cancelling a job while the process of its current step runs: from the moment `cancel_job` has answered
`Ok`, whatever else happens short of the process exiting by itself, the operating system failing or the step timing
out, the step either has ended, as cancelled and with its container killed, or is still being executed and the engine
or the task can go on (by `C87_bounded`, not forever). -/
theorem C88_cancel (cfg : LocalSetup) (job : Job) (t : Time) (acts : List StackAct) (s s1 : LocalStack)
    (h : StackReach cfg job t acts s) (st : Step) (p : RunPlan) (l : LocalRun) (hex : Executing s st p l)
    (hrun : Running l) (hno : s.eng.sig.signal = none)
    (hc : s.step (.eng .cancel) = some s1) (hok : s1.eng.answers = s.eng.answers ++ [true])
    (more : List StackAct) (s' : LocalStack)
    (hm : ∀ a ∈ more, sparesTask (s.tasks.length - 1) a = true ∧ a ≠ .eng .timer)
    (hr : runs LocalStack.step s1 more = some s') :
    (∃ r l', EndedWith s s' r ∧ r.id = st.id ∧ r.state = .cancelled ∧ s'.tasks.getLast? = some (p, l') ∧
      (p.kind = .docker → l'.kills = ["docker kill " ++ p.dirs.dockerName])) ∨
    (∃ l', Executing s' st p l' ∧
      ∃ a, isWork (s.tasks.length - 1) a = true ∧ a ≠ .eng .timer ∧ (s'.step a).isSome = true) := by
  have hi := stackInv_reach h
  have hi1 := stackInv_step hi hc
  obtain ⟨hrd, hst⟩ := executing_reading hex
  obtain ⟨ja, hja⟩ := hi.eng
  have hreg := (allInv_run hja).2.2.1
  obtain ⟨_, h2, h3, h4⟩ := last_eng hex.2 hc
  have hpend : ∃ l1, Pending st p s.tasks.length s.eng.acc.results s1 l1 := by
    simp only [JobM.step] at h2
    cases hj : s.eng.jobSig with
    | none =>
      rw [hj] at h2
      simp only [Option.some.injEq] at h2
      rw [← h2] at hok
      simp at hok
    | some js =>
      rw [hj] at h2
      simp only [Option.some.injEq] at h2
      rw [← h2] at hok h4
      simp only [List.append_cancel_left_eq, List.cons.injEq, and_true] at hok
      rw [set_ok] at hok
      rw [if_pos hrd, share_none (by simpa using hno)] at h4
      have hnn : js.signal = none := by simpa using hok
      have hnot : js.isNotified = false := by
        cases hb : js.isNotified with
        | false => rfl
        | true =>
          have := (hreg.reg js hj).2.1 hb
          simp [hnn] at this
      refine ⟨l, reading_executing (by rw [← h2]; exact hrd) (by rw [← h2]; exact hst) h4, h3, by rw [← h2], hrun,
        by rw [← h2]; exact hno, ?_⟩
      rw [← h2]
      exact ⟨_, rfl, by simp [set_signal, hnn], by rw [set_notified]; exact hnot⟩
  have key : ∀ (more : List StackAct) (s1 : LocalStack), StackInv cfg job t s1 →
      ((∃ l1, Pending st p s.tasks.length s.eng.acc.results s1 l1) ∨
        StruckAt .cancel st p s.tasks.length s.eng.acc.results s1) →
      (∀ a ∈ more, sparesTask (s.tasks.length - 1) a = true ∧ a ≠ .eng .timer) →
      runs LocalStack.step s1 more = some s' → StackInv cfg job t s' ∧
      ((∃ l1, Pending st p s.tasks.length s.eng.acc.results s' l1) ∨
        StruckAt .cancel st p s.tasks.length s.eng.acc.results s') := by
    intro more
    induction more with
    | nil =>
      intro s1 hi1 hp _ hr
      simp only [runs, Option.some.injEq] at hr
      subst hr
      exact ⟨hi1, hp⟩
    | cons a more ih =>
      intro s1 hi1 hp hm hr
      simp only [runs] at hr
      cases hs : s1.step a with
      | none => simp [hs] at hr
      | some s2 =>
        rw [hs] at hr
        obtain ⟨m1, m2⟩ := hm a (by simp)
        refine ih s2 (stackInv_step hi1 hs) ?_ (fun x hx => hm x (by simp [hx])) hr
        rcases hp with ⟨l1, hp⟩ | hp
        · exact pending_step hi1 hp m1 m2 hs
        · exact .inr (struckAt_step hi1 hp m1 hs)
  obtain ⟨hi', hfin⟩ := key more s1 hi1 (.inl hpend) hm hr
  rcases hfin with ⟨l1, hp⟩ | hst'
  · right
    refine ⟨l1, hp.hex, ?_⟩
    rcases hp.hex.1 with ⟨t0, e⟩ | ⟨t0, d, e⟩
    · exact ⟨.eng .enter, rfl, by simp, eng_enabled rfl (by simp [JobM.step, e])⟩
    · obtain ⟨js, j1, j2, j3⟩ := hp.job
      exact ⟨.eng .jobSignal, rfl, by simp, eng_enabled rfl (by simp [JobM.step, e, j1, SigState.poll, j2, j3])⟩
  · rcases struckAt_claim hi' hst' with ⟨r, l', g1, g2, g3, g4⟩ | hgo
    · exact .inl ⟨r, l', g1, g2, g3.1, g4⟩
    · exact .inr hgo

example : StackReach StackEx.setup MachineEx.job 0 StackEx.quiet (StackEx.after StackEx.quiet) ∧
    (∃ p, Executing (StackEx.after StackEx.quiet) (MachineEx.st 0) p (StackEx.task StackEx.quiet)) ∧
    Running (StackEx.task StackEx.quiet) ∧ (StackEx.after StackEx.quiet).eng.sig.signal = none ∧
    (StackEx.after StackEx.quiet).step (.eng .cancel) = some (StackEx.after (StackEx.quiet ++ [.eng .cancel])) ∧
    (StackEx.after (StackEx.quiet ++ [.eng .cancel])).eng.answers = [true] ∧
    runs LocalStack.step (StackEx.after (StackEx.quiet ++ [.eng .cancel])) StackEx.stop =
      some (StackEx.after (StackEx.quiet ++ [.eng .cancel] ++ StackEx.stop)) ∧
    (∀ a ∈ StackEx.stop, sparesTask ((StackEx.after StackEx.quiet).tasks.length - 1) a = true ∧ a ≠ .eng .timer) ∧
    EndedWith (StackEx.after StackEx.quiet) (StackEx.after (StackEx.quiet ++ [.eng .cancel] ++ StackEx.stop))
      { id := ⟨"w", "j", 0⟩, state := .cancelled, exitCode := none, startedAt := some 0, completedAt := some 0 } := by
  refine ⟨by rfl, ⟨_, .inr ⟨0, 2, by rfl⟩, by rfl⟩, ⟨.inl (by rfl), _, by rfl, by rfl⟩, by rfl, by rfl, by rfl, by rfl, ?_,
    ⟨by rfl, by rfl⟩⟩
  have : (StackEx.after StackEx.quiet).tasks.length = 1 := by rfl
  rw [this]
  intro a ha
  simp only [StackEx.stop, List.mem_cons, List.not_mem_nil, or_false] at ha
  rcases ha with rfl | rfl | rfl | rfl | rfl <;> exact ⟨rfl, by simp⟩

/-- Nothing is there for the engine to receive, its timer has expired; the process runs. -/
structure Expired (st : Step) (p : RunPlan) (n : Nat) (rs : List StepRunResult) (s : LocalStack) (l : LocalRun) : Prop where
  hex : Executing s st p l
  hlen : s.tasks.length = n
  hrs : s.eng.acc.results = rs
  run : Running l
  nosig : s.eng.sig.signal = none
  pc : ∃ t0 d, s.eng.pc = .select st t0 d ∧ d ≤ s.eng.now
  read : s.eng.stream.logs.length ≤ s.eng.stream.index
  out : unreadOut l = []
  err : unreadErr l = []
  job : ∀ js, s.eng.jobSig = some js → js.signal = none ∨ js.isNotified = true

theorem silent_step {l l' : LocalRun} {b : LocalAct} (hf : isFailure b = false) (he : ∀ c, b ≠ .exit c)
    (hne : ∀ w, b ≠ .setSignal w) (hsig : l.sig.signal = none) (h : Running l) (ho : unreadOut l = [])
    (hr : unreadErr l = []) (hb : ∀ x, b ≠ .childOut x ∧ b ≠ .childErr x) (hs : l.step b = some l') :
    unreadOut l' = [] ∧ unreadErr l' = [] ∧ l'.stream = l.stream := by
  obtain ⟨hp, ch, c1, c2⟩ := h
  have hnot : ∀ sg v, l.sig.poll 0 ≠ (sg, some v) := by
    intro sg v e
    have := (poll_some e).2.1
    simp [hsig] at this
  have o1 : ch.outQ = [] := by simpa [unreadOut, c1] using ho
  have o2 : ch.errQ = [] := by simpa [unreadErr, c1] using hr
  cases b <;> simp only [isFailure, reduceCtorEq] at hf <;> simp only [LocalRun.step] at hs
  case exit c => exact absurd rfl (he c)
  case setSignal w => exact absurd rfl (hne w)
  case childOut x => exact absurd rfl (hb x).1
  case childErr x => exact absurd rfl (hb x).2
  case sigReady =>
    split at hs
    · split at hs
      · rename_i sg v e; exact absurd e (hnot sg v)
      · simp at hs
    · simp at hs
  case readOut | readErr =>
    split at hs
    · rw [c1] at hs
      simp only [o1, o2] at hs
      split at hs <;> simp only [Option.some.injEq, reduceCtorEq] at hs
      subst hs
      exact ⟨by simp [unreadOut, o1], by simp [unreadErr, o2], rfl⟩
    · simp at hs
  case waitOk => simp [c1, c2] at hs
  all_goals
    repeat' (split at hs)
    all_goals simp only [Option.some.injEq, reduceCtorEq] at hs
    all_goals subst hs
    all_goals simp_all [unreadOut, unreadErr]

theorem expired_step {cfg : LocalSetup} {job : Job} {t : Time} {s s' : LocalStack} {a : StackAct} {st : Step} {p : RunPlan}
    {n : Nat} {rs : List StepRunResult} {l : LocalRun} (hi : StackInv cfg job t s) (h : Expired st p n rs s l)
    (ha : sparesTask (n - 1) a = true) (hac : a ≠ .eng .cancel) (hao : isOutput (n - 1) a = false)
    (hs : s.step a = some s') :
    (∃ l', Expired st p n rs s' l') ∨ StruckAt .timeout st p n rs s' := by
  obtain ⟨hr, hst⟩ := executing_reading h.hex
  obtain ⟨p0, l0, e1, e2, e3, e4, _⟩ := hi.link hr
  rw [h.hex.2, Option.some.injEq, Prod.mk.injEq] at e1
  obtain ⟨rfl, rfl⟩ := e1
  obtain ⟨la, hla⟩ := hi.tasks _ p l (getLast_index h.hex.2)
  have hres := (local_reach hla).1
  have hlsig : l.sig.signal = none := by rw [e4]; exact h.nosig
  obtain ⟨t0, d, hpc, hd⟩ := h.pc
  have hnone : s.eng.stream.result = none := by rw [← e3]; exact running_noresult hres h.run
  cases a with
  | eng b =>
    obtain ⟨h1, h2, h3, h4⟩ := last_eng h.hex.2 hs
    by_cases hb : b = .timer
    · subst hb
      right
      simp only [JobM.step, hpc, hd, if_true, Option.some.injEq] at h2
      have hsig' : s'.eng.sig.signal = some .timeout := by rw [← h2]; simp [set_signal, h.nosig]
      have hrd' : s'.eng.pc.reading = true := by rw [← h2]; rfl
      rw [if_pos hrd'] at h4
      refine .going _ (reading_executing hrd' (by rw [← h2]; rfl) h4) (by rw [h3, h.hlen])
        (by rw [← h2]; exact h.hrs) ?_
      obtain ⟨la', hla'⟩ := (stackInv_step hi hs).tasks _ p _ (getLast_index h4)
      exact running_struck (local_reach hla').1 (running_share h.run _) (share_signal hsig' hlsig)
    · left
      cases b <;> simp only [JobAct.byRunner, reduceCtorEq, ne_eq, not_true_eq_false, sparesTask] at h1 hb hac ha <;>
        simp only [JobM.step, hpc, reduceCtorEq] at h2
      case tick n =>
        simp only [Option.some.injEq] at h2
        have hrd' : s'.eng.pc.reading = true := by rw [← h2]; rfl
        rw [if_pos hrd', share_none (by rw [← h2]; exact h.nosig)] at h4
        exact ⟨l, reading_executing hrd' (by rw [← h2]; rfl) h4, by rw [h3, h.hlen], by rw [← h2]; exact h.hrs, h.run,
          by rw [← h2]; exact h.nosig, ⟨t0, d, by rw [← h2], by rw [← h2]; exact Nat.le_trans hd (Nat.le_add_right _ _)⟩,
          by rw [← h2]; exact h.read, h.out, h.err, by rw [← h2]; exact h.job⟩
      case jobSignal =>
        split at h2
        · rename_i js _ hjs
          split at h2 <;> simp only [Option.some.injEq, reduceCtorEq] at h2
          rename_i hpoll
          obtain ⟨q1, q2, _⟩ := poll_some hpoll
          rcases h.job js hjs with e | e
          · simp [e] at q2
          · simp [e] at q1
        · simp at h2
      case recv =>
        have : s.eng.stream.logs[s.eng.stream.index]? = none := List.getElem?_eq_none_iff.2 h.read
        simp [StreamState.poll, this, hnone] at h2
  | spawned past envs =>
    simp only [LocalStack.step] at hs
    split at hs
    · rename_i hp; simp [hp, JobPc.reading] at hr
    · simp at hs
  | loc i b =>
    left
    by_cases hk : i + 1 = s.tasks.length
    · obtain ⟨l', k1, k2, k3, k4, k5⟩ := last_own h.hex.2 hk hs
      have hl := h.hlen
      obtain ⟨f1, f2⟩ := spares_own ha (by omega)
      have hbo : ∀ x, b ≠ .childOut x ∧ b ≠ .childErr x := by
        intro x
        have hin : i = n - 1 := by omega
        constructor <;> (intro e; subst e; simp [isOutput, hin] at hao)
      obtain ⟨q1, q2, q3⟩ := silent_step f1 f2 k2 hlsig h.run h.out h.err hbo k1
      have : s'.eng = s.eng := by
        rw [k5, if_pos hr, wrote_nothing (by rw [q3]) (by rw [q3])]
        rfl
      exact ⟨l', reading_executing (by rw [this]; exact hr) (by rw [this]; exact hst) k4, by rw [k3, h.hlen],
        by rw [this]; exact h.hrs, running_step f1 f2 k2 hlsig h.run k1, by rw [this]; exact h.nosig,
        by rw [this]; exact h.pc, by rw [this]; exact h.read, q1, q2, by rw [this]; exact h.job⟩
    · obtain ⟨h1, h2, h3⟩ := last_other h.hex.2 hk hs
      exact ⟨l, reading_executing (by rw [h1]; exact hr) (by rw [h1]; exact hst) h3, by rw [h2, h.hlen],
        by rw [h1]; exact h.hrs, h.run, by rw [h1]; exact h.nosig, by rw [h1]; exact h.pc, by rw [h1]; exact h.read,
        h.out, h.err, by rw [h1]; exact h.job⟩
  | others mem =>
    cases hs
    exact .inl ⟨l, h.hex, h.hlen, h.hrs, h.run, h.nosig, h.pc, h.read, h.out, h.err, h.job⟩

/-- **C89** A step whose process keeps running in silence: if the engine waits for it, everything it wrote has been
read and reported, and no signal is on its way, then once the time of the wait (the step's `timeout` after the last
thing it received) is over, whatever else happens short of the process writing something or exiting, the operating
system failing or a cancel, the step either has ended, as failed with exit code 123 and with its container killed, or
is still being executed and the engine or the task can go on (by `C87_bounded`, not forever). -/
theorem C89_idle_timeout (cfg : LocalSetup) (job : Job) (t : Time) (acts : List StackAct) (s s1 : LocalStack)
    (h : StackReach cfg job t acts s) (st : Step) (p : RunPlan) (l : LocalRun) (t0 d : Time)
    (hpc : s.eng.pc = .select st t0 d) (hlast : s.tasks.getLast? = some (p, l))
    (hrun : Running l) (hno : s.eng.sig.signal = none)
    (hjob : ∀ js, s.eng.jobSig = some js → js.signal = none ∨ js.isNotified = true)
    (hread : s.eng.stream.logs.length ≤ s.eng.stream.index) (hout : unreadOut l = []) (herr : unreadErr l = [])
    (n : Nat) (hn : d ≤ s.eng.now + n) (hc : s.step (.eng (.tick n)) = some s1)
    (more : List StackAct) (s' : LocalStack)
    (hm : ∀ a ∈ more, sparesTask (s.tasks.length - 1) a = true ∧ a ≠ .eng .cancel ∧
      isOutput (s.tasks.length - 1) a = false)
    (hr : runs LocalStack.step s1 more = some s') :
    (∃ r l', EndedWith s s' r ∧ r.id = st.id ∧ r.state = .failed ∧ r.exitCode = some 123 ∧
      s'.tasks.getLast? = some (p, l') ∧ (p.kind = .docker → l'.kills = ["docker kill " ++ p.dirs.dockerName])) ∨
    (∃ l', Executing s' st p l' ∧ ∃ a, isWork (s.tasks.length - 1) a = true ∧ (s'.step a).isSome = true) := by
  have hi := stackInv_reach h
  have hi1 := stackInv_step hi hc
  have hex : Executing s st p l := ⟨.inr ⟨t0, d, hpc⟩, hlast⟩
  obtain ⟨_, h2, h3, h4⟩ := last_eng hex.2 hc
  have hexp : ∃ l1, Expired st p s.tasks.length s.eng.acc.results s1 l1 := by
    simp only [JobM.step, Option.some.injEq] at h2
    have hrd' : s1.eng.pc.reading = true := by rw [← h2, hpc]; rfl
    rw [if_pos hrd', share_none (by rw [← h2]; exact hno)] at h4
    exact ⟨l, reading_executing hrd' (by rw [← h2, hpc]; rfl) h4, h3, by rw [← h2], hrun,
      by rw [← h2]; exact hno, ⟨t0, d, by rw [← h2]; exact hpc, by rw [← h2]; exact hn⟩,
      by rw [← h2]; exact hread, hout, herr, by rw [← h2]; exact hjob⟩
  have key : ∀ (more : List StackAct) (s1 : LocalStack), StackInv cfg job t s1 →
      ((∃ l1, Expired st p s.tasks.length s.eng.acc.results s1 l1) ∨
        StruckAt .timeout st p s.tasks.length s.eng.acc.results s1) →
      (∀ a ∈ more, sparesTask (s.tasks.length - 1) a = true ∧ a ≠ .eng .cancel ∧
        isOutput (s.tasks.length - 1) a = false) →
      runs LocalStack.step s1 more = some s' → StackInv cfg job t s' ∧
      ((∃ l1, Expired st p s.tasks.length s.eng.acc.results s' l1) ∨
        StruckAt .timeout st p s.tasks.length s.eng.acc.results s') := by
    intro more
    induction more with
    | nil =>
      intro s1 hi1 hp _ hr
      simp only [runs, Option.some.injEq] at hr
      subst hr
      exact ⟨hi1, hp⟩
    | cons a more ih =>
      intro s1 hi1 hp hm hr
      simp only [runs] at hr
      cases hs : s1.step a with
      | none => simp [hs] at hr
      | some s2 =>
        rw [hs] at hr
        obtain ⟨m1, m2, m3⟩ := hm a (by simp)
        refine ih s2 (stackInv_step hi1 hs) ?_ (fun x hx => hm x (by simp [hx])) hr
        rcases hp with ⟨l1, hp⟩ | hp
        · exact expired_step hi1 hp m1 m2 m3 hs
        · exact .inr (struckAt_step hi1 hp m1 hs)
  obtain ⟨hi', hfin⟩ := key more s1 hi1 (.inl hexp) hm hr
  rcases hfin with ⟨l1, hp⟩ | hst'
  · right
    obtain ⟨t1, d1, e, e'⟩ := hp.pc
    exact ⟨l1, hp.hex, .eng .timer, rfl, eng_enabled rfl (by simp [JobM.step, e, e'])⟩
  · rcases struckAt_claim hi' hst' with ⟨r, l', g1, g2, g3, g4⟩ | ⟨l', g1, a, g2, _, g3⟩
    · exact .inl ⟨r, l', g1, g2, g3.1, g3.2, g4⟩
    · exact .inr ⟨l', g1, a, g2, g3⟩

example : StackReach StackEx.setup MachineEx.job 0 StackEx.quiet (StackEx.after StackEx.quiet) ∧
    (StackEx.after StackEx.quiet).eng.pc = .select (MachineEx.st 0) 0 2 ∧
    (StackEx.after StackEx.quiet).eng.jobSig = some {} ∧
    (StackEx.after StackEx.quiet).eng.stream.logs.length = 1 ∧ (StackEx.after StackEx.quiet).eng.stream.index = 1 ∧
    unreadOut (StackEx.task StackEx.quiet) = [] ∧ unreadErr (StackEx.task StackEx.quiet) = [] ∧
    (StackEx.after StackEx.quiet).step (.eng (.tick 2)) = some (StackEx.after (StackEx.quiet ++ [.eng (.tick 2)])) ∧
    (∀ a ∈ StackEx.expire, sparesTask ((StackEx.after StackEx.quiet).tasks.length - 1) a = true ∧ a ≠ .eng .cancel ∧
      isOutput ((StackEx.after StackEx.quiet).tasks.length - 1) a = false) ∧
    runs LocalStack.step (StackEx.after (StackEx.quiet ++ [.eng (.tick 2)])) StackEx.expire =
      some (StackEx.after (StackEx.quiet ++ [.eng (.tick 2)] ++ StackEx.expire)) ∧
    EndedWith (StackEx.after StackEx.quiet) (StackEx.after (StackEx.quiet ++ [.eng (.tick 2)] ++ StackEx.expire))
      { id := ⟨"w", "j", 0⟩, state := .failed, exitCode := some 123, startedAt := some 0, completedAt := some 2 } := by
  refine ⟨by rfl, by rfl, by rfl, by rfl, by rfl, by rfl, by rfl, by rfl, ?_, by rfl, ⟨by rfl, by rfl⟩⟩
  have : (StackEx.after StackEx.quiet).tasks.length = 1 := by rfl
  rw [this]
  intro a ha
  simp only [StackEx.expire, List.mem_cons, List.not_mem_nil, or_false] at ha
  rcases ha with rfl | rfl | rfl | rfl | rfl <;> exact ⟨rfl, by simp, rfl⟩

/-! ## C88: the job -/

theorem state_not_skipped {job : Job} {t : Time} {acts : List JobAct} {m : JobM} (h : JobReach job t acts m) :
    m.acc.state ≠ .skipped := by
  refine runs_induct (P := fun _ m => m.acc.state ≠ .skipped) (by simp [JobM.initial]) ?_ h
  intro acts a m m' _ hi hs
  have next : ∀ r, nextJobState m.acc.state r ≠ .skipped := by
    intro r
    simp only [nextJobState]
    split <;> simp [hi]
  cases a <;> simp only [JobM.step] at hs
  all_goals
    repeat' (split at hs)
    all_goals simp only [Option.some.injEq, reduceCtorEq] at hs
    all_goals subst hs
    all_goals first
      | exact hi
      | (simp only [JobM.stepDone]; exact next _)
      | (simp [JobAcc.start]; done)

/-- What happens to the results of a job in progress. -/
theorem results_step {m m' : JobM} {a : JobAct} (hs : m.step a = some m') (hinit : m.pc ≠ .init)
    (hf : ∀ r, m.pc = .finished r → r.state ≠ .skipped ∧ r.steps = m.acc.results)
    (hst : m.acc.state ≠ .skipped) :
    m'.pc ≠ .init ∧ (∀ x ∈ m.acc.results, x ∈ m'.acc.results) ∧
    (∀ r, m'.pc = .finished r → r.state ≠ .skipped ∧ r.steps = m'.acc.results) := by
  cases a <;> simp only [JobM.step] at hs
  case finishJob =>
    split at hs
    · simp only [Option.some.injEq] at hs
      subst hs
      refine ⟨by simp, fun x h => h, fun r hr => ?_⟩
      simp only [JobPc.finished.injEq] at hr
      subst hr
      refine ⟨?_, rfl⟩
      simp only [JobAcc.finish]
      split
      · simp
      · exact hst
    · simp at hs
  case check =>
    repeat' (split at hs)
    all_goals first | (simp at hs; done) | exact absurd (by assumption) hinit
  case nextStep =>
    split at hs
    · rename_i hp _
      split at hs <;> (simp only [Option.some.injEq] at hs; subst hs)
      · exact ⟨hinit, fun x h => List.mem_append_left _ h, fun r hr => by simp [hp] at hr⟩
      · exact ⟨by simp, fun x h => h, fun r hr => by simp at hr⟩
    · simp at hs
  all_goals
    repeat' (split at hs)
    all_goals simp only [Option.some.injEq, reduceCtorEq] at hs
    all_goals subst hs
    all_goals
      refine ⟨?_, fun x h => ?_, fun r hr => ?_⟩
      · first | exact hinit | (intro e; injection e)
      · first | exact h | exact List.mem_append_left _ h
      · first | exact hf r hr | (exact absurd hr (by intro e; injection e)) | (rename_i hp _ _; rw [hp] at hr; injection hr)

/-- **C88** and then the job ends as cancelled: once a step has ended as cancelled, whatever happens, if the job ends,
its result is `Cancelled` and all later steps are skipped. -/
theorem C88_job (cfg : LocalSetup) (job : Job) (t : Time) (acts : List StackAct) (s s' s2 : LocalStack)
    (h : StackReach cfg job t acts s') (r0 : StepRunResult) (hend : EndedWith s s' r0) (hc : r0.state = .cancelled)
    (more : List StackAct) (hm : runs LocalStack.step s' more = some s2) (r : JobRunResult)
    (hf : s2.eng.pc = .finished r) :
    r.state = .cancelled ∧ ∃ i, r.steps[i]? = some r0 ∧
      ∀ (j : Nat) (x : StepRunResult), i < j → r.steps[j]? = some x → x.state = .skipped := by
  have key : ∀ (more : List StackAct) (s1 : LocalStack), StackInv cfg job t s1 → s1.eng.pc ≠ .init →
      r0 ∈ s1.eng.acc.results →
      (∀ r, s1.eng.pc = .finished r → r.state ≠ .skipped ∧ r.steps = s1.eng.acc.results) →
      runs LocalStack.step s1 more = some s2 →
      StackInv cfg job t s2 ∧ r0 ∈ s2.eng.acc.results ∧
      (∀ r, s2.eng.pc = .finished r → r.state ≠ .skipped ∧ r.steps = s2.eng.acc.results) := by
    intro more
    induction more with
    | nil =>
      intro s1 h1 h2 h3 h4 h5
      simp only [runs, Option.some.injEq] at h5
      subst h5
      exact ⟨h1, h3, h4⟩
    | cons a more ih =>
      intro s1 h1 h2 h3 h4 h5
      simp only [runs] at h5
      cases hs : s1.step a with
      | none => simp [hs] at h5
      | some s3 =>
        rw [hs] at h5
        obtain ⟨ja, hja⟩ := h1.eng
        have hst := state_not_skipped hja
        have : s3.eng = s1.eng ∨ ∃ b, s1.eng.step b = some s3.eng := by
          cases a with
          | eng b =>
            simp only [LocalStack.step] at hs
            split at hs
            · simp at hs
            · simp only [Option.map_eq_some_iff] at hs
              obtain ⟨m, hm, rfl⟩ := hs
              exact .inr ⟨b, hm⟩
          | spawned past envs =>
            simp only [LocalStack.step] at hs
            split at hs
            · simp only [Option.map_eq_some_iff] at hs
              obtain ⟨m, hm, rfl⟩ := hs
              exact .inr ⟨_, hm⟩
            · simp at hs
          | loc i b =>
            obtain ⟨p, l, l', g1, g2, g3, rfl⟩ := loc_step hs
            simp only
            split
            · simp only [JobM.absorb]
              split
              · rename_i x hx
                cases hb : s1.eng.step x with
                | none => left; simp
                | some m => right; exact ⟨x, by simp [hb]⟩
              · exact .inl rfl
            · exact .inl rfl
          | others mem => cases hs; exact .inl rfl
        have hn := stackInv_step h1 hs
        rcases this with e | ⟨b, hb⟩
        · exact ih s3 hn (by rw [e]; exact h2) (by rw [e]; exact h3) (by rw [e]; exact h4) h5
        · obtain ⟨k1, k2, k3⟩ := results_step hb h2 h4 hst
          exact ih s3 hn k1 (k2 _ h3) k3 h5
  obtain ⟨k1, k2, k3⟩ := key more s' (stackInv_reach h) (by rw [hend.1]; simp) (by rw [hend.2]; simp)
    (fun r hr => by rw [hend.1] at hr; simp at hr) hm
  obtain ⟨k4, k5⟩ := k3 r hf
  obtain ⟨ja, hja⟩ := k1.eng
  rw [← k5] at k2
  obtain ⟨i, hi, e⟩ := List.getElem_of_mem k2
  obtain ⟨f1, f2⟩ := C23_cancelled_step_ends_job job t ja s2.eng hja r hf k4 i hi (by rw [e]; exact hc)
  refine ⟨f1, i, by rw [List.getElem?_eq_getElem hi, e], fun j x hij hx => ?_⟩
  obtain ⟨hj, e'⟩ := List.getElem?_eq_some_iff.1 hx
  rw [← e']
  exact f2 j hj hij

end AstroRun
