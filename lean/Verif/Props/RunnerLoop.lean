import Verif.Lemmas.RunnerLoop
import Verif.Props.LocalRun

/-!
# C121: the task of the local runner, poll by poll

The task that runs a step waits for the two pipes or the exit of its process and for the step's signal, and sleeps in
between.  However the polls interleave with the process and the engine, it misses nothing, does not spin, and ends.
-/

namespace AstroRun
open Spec

/-- **C121** No lost wake-up: while the task sleeps, no signal is set, and there is nothing to read, no pipe was closed, no
exit to see. -/
theorem C121_asleep {p : RunPlan} {plugins : Nat} {acts : List RunLoopAct} {m : RunLoop} (h : TaskReach p plugins acts m)
    (ha : RunnerAsleep m) : NothingReady m := by
  have hi := runInv_reach h
  obtain ⟨lacts, l, hl, ⟨he, -⟩, -⟩ := runner_runs_local h
  have hk := (local_reach hl).2
  have hw := hi.wakers ha.2
  rw [ha.1] at hw
  have hs := (hw .signal).1
  refine ⟨hs, ?_⟩
  have hc : m.run.child = l.child := by rw [he]
  have hpc : m.run.pc = l.pc := by rw [he]
  have hx : m.run.exitSeen = l.exitSeen := by rw [he]
  rcases hw .command with h1 | ⟨h1, h2, h3⟩ | ⟨h1, h2⟩
  · rw [h1]
    have h3 := (local_reach hl).1
    simp only [ResOk, ← hpc, h1] at h3
    obtain ⟨c, e1, -⟩ := h3
    simp only [hx, e1, Option.isSome_some]
  · have q1 := hi.quiet.out h2
    have q2 := hi.quiet.err h3
    rw [h1]
    obtain ⟨ch, hch⟩ := hk.late (.inl (by rw [← hpc]; exact h1))
    rw [← hc] at hch
    simp only [RunLoop.outReady, RunLoop.errReady, hch, Bool.or_eq_false_iff, Bool.not_eq_false', Option.isSome_eq_false_iff,
      Option.isNone_iff_eq_none, List.isEmpty_iff] at q1 q2
    exact ⟨q1.1, q2.1, ch, hch, q1.2.1, q2.2.1, q1.2.2, q2.2.2⟩
  · have q1 := hi.quiet.exit h2
    rw [h1]
    obtain ⟨ch, hch⟩ := hk.late (.inr (by rw [← hpc]; exact h1))
    rw [← hc] at hch
    simp only [RunLoop.exitReady, hch, Bool.or_eq_false_iff, Option.isSome_eq_false_iff, Option.isNone_iff_eq_none] at q1
    exact ⟨q1.1, ch, hch, q1.2⟩

/-- `NothingReady` in terms of `LocalRun`. -/
theorem nothing_stuck {m : RunLoop} (h : NothingReady m) : TaskStuck m.run := by
  obtain ⟨hs, h⟩ := h
  intro a ha hf
  cases hp : m.run.pc with
  | select c =>
    cases a <;> simp only [LocalAct.own, isFailure, reduceCtorEq, Bool.true_eq_false, Bool.false_eq_true] at ha hf <;>
      simp only [LocalRun.step, hp, reduceCtorEq, if_false]
    case sigReady =>
      have : (m.run.sig.poll 0).2 = none := by simp only [SigState.poll, hs]; split <;> rfl
      split
      · rename_i h1; rw [h1] at this; cases this
      · rfl
    case spawnOk => cases c <;> simp only [hp] at h <;> simp
    case readOut =>
      cases c <;> simp only [hp] at h <;> simp only [LocalPc.select.injEq, reduceCtorEq, if_false, if_true]
      obtain ⟨-, -, ch, e1, e2, e3, e4, e5⟩ := h
      simp [e1, e2, e4]
    case readErr =>
      cases c <;> simp only [hp] at h <;> simp only [LocalPc.select.injEq, reduceCtorEq, if_false, if_true]
      obtain ⟨-, -, ch, e1, e2, e3, e4, e5⟩ := h
      simp [e1, e3, e5]
    case waitOk =>
      cases c <;> simp only [hp] at h <;> simp only [LocalPc.select.injEq, reduceCtorEq, if_false, if_true]
      obtain ⟨-, ch, e1, e2⟩ := h
      simp [e1, e2]
  | _ => simp only [hp] at h

/-- **C121** A task that is neither asleep nor done is never stuck, in whatever order its two `select!`s poll, and even if no
operation of the operating system fails, or starting the process does (`ok`). -/
theorem C121_not_stuck {p : RunPlan} {plugins : Nat} {acts : List RunLoopAct} {m : RunLoop} (h : TaskReach p plugins acts m)
    (ha : ¬ RunnerAsleep m) (hf : m.run.pc ≠ .done) {order : List RunBranch} {pipes : List PipeBranch}
    (ho : order = [.command, .signal] ∨ order = [.signal, .command]) (hp : pipes = [.out, .err] ∨ pipes = [.err, .out])
    (ok : Bool) :
    ∃ a m', a ∈ [RunLoopAct.own .begin_, .own .mkdirOk, .own .entryOk, .own .killDone, .own .removeOk, .own .finish, .own .hook,
      .select order, .poll, .spawn ok, .inner pipes, .park, .repoll order] ∧ m.step a = some m' := by
  have hi := runInv_reach h
  have hb : bothRun order = true := by rcases ho with rfl | rfl <;> rfl
  have hb' : bothPipes pipes = true := by rcases hp with rfl | rfl <;> rfl
  have hpl := hi.place
  unfold RunPlace at hpl
  cases hpc : m.pc with
  | outside =>
    rw [hpc] at hpl
    have key : ∀ a ∈ [LocalAct.begin_, .mkdirOk, .entryOk, .killDone, .removeOk, .finish, .hook], m.run.step a ≠ none →
        ∃ a m', a ∈ [RunLoopAct.own .begin_, .own .mkdirOk, .own .entryOk, .own .killDone, .own .removeOk, .own .finish, .own .hook,
          .select order, .poll, .spawn ok, .inner pipes, .park, .repoll order] ∧ m.step a = some m' := by
      intro a ha hs
      obtain ⟨l, hl⟩ := Option.ne_none_iff_exists'.1 hs
      have hq : a.sequential = true := by
        simp only [List.mem_cons, List.not_mem_nil, or_false] at ha
        rcases ha with rfl | rfl | rfl | rfl | rfl | rfl | rfl <;> rfl
      refine ⟨.own a, m.after .top l, ?_, by simp [RunLoop.step, hpc, hq, hl]⟩
      simp only [List.mem_cons, List.not_mem_nil, or_false] at ha
      rcases ha with rfl | rfl | rfl | rfl | rfl | rfl | rfl <;> simp
    cases hr : m.run.pc with
    | start => exact key .begin_ (by simp) (by simp only [LocalRun.step, hr, if_true]; split <;> simp)
    | mkdir => exact key .mkdirOk (by simp) (by simp [LocalRun.step, hr])
    | entry => exact key .entryOk (by simp) (by simp [LocalRun.step, hr])
    | select c => exact absurd hr (hpl c)
    | kill v => exact key .killDone (by simp) (by simp [LocalRun.step, hr])
    | remove => exact key .removeOk (by simp) (by simp [LocalRun.step, hr])
    | returned => exact key .finish (by simp) (by simp [LocalRun.step, hr])
    | hooks n => exact key .hook (by simp) (by simp only [LocalRun.step, hr]; split <;> simp)
    | done => exact absurd hr hf
  | top => exact ⟨.select order, _, by simp, by simp only [RunLoop.step, hpc, hb, if_true]; rfl⟩
  | pending =>
    have hw : m.woken = true := by
      rcases Bool.eq_false_or_eq_true m.woken with hw | hw
      · exact hw
      · exact absurd ⟨hpc, hw⟩ ha
    exact ⟨.repoll order, _, by simp, by simp only [RunLoop.step, hpc, hw, hb, Bool.true_and, if_true]; rfl⟩
  | polling todo =>
    cases todo with
    | nil => exact ⟨.park, _, by simp, by simp only [RunLoop.step, hpc]; rfl⟩
    | cons b todo =>
      refine ⟨.poll, ?_⟩
      cases b <;> simp only [RunLoop.step, hpc, RunLoop.pollSignal]
      · exact ⟨_, by simp, rfl⟩
      · cases m.run.step .sigReady <;> exact ⟨_, by simp, rfl⟩
  | command todo =>
    rw [hpc] at hpl
    obtain ⟨⟨c, hc⟩, hne⟩ := hpl
    cases c with
    | okDone => exact absurd hc hne
    | notStarted =>
      refine ⟨.spawn ok, ?_⟩
      cases ok <;> simp only [RunLoop.step, hpc, Bool.false_eq_true, if_false, if_true, LocalRun.step, hc, Option.map_some] <;>
        exact ⟨_, by simp, rfl⟩
    | reading => exact ⟨.inner pipes, _, by simp, by simp only [RunLoop.step, hpc, hc, hb', and_self, if_true]; rfl⟩
    | waiting =>
      refine ⟨.poll, ?_⟩
      simp only [RunLoop.step, hpc, hc, if_true, RunLoop.pollWait]
      split
      · simp only [LocalRun.step, hc, if_true, Option.map_some]; exact ⟨_, by simp, rfl⟩
      · cases m.run.step .waitOk <;> exact ⟨_, by simp, rfl⟩
  | pipes todo inner =>
    rw [hpc] at hpl
    refine ⟨.poll, ?_⟩
    cases inner with
    | nil => simp only [RunLoop.step, hpc]; exact ⟨_, by simp, rfl⟩
    | cons b inner =>
      cases b <;> simp only [RunLoop.step, hpc, RunLoop.pollPipe]
      · cases m.outBroken with
        | some e => simp only [LocalRun.step, hpl, if_true, Option.map_some]; exact ⟨_, by simp, rfl⟩
        | none => cases m.run.step .readOut <;> exact ⟨_, by simp, rfl⟩
      · cases m.errBroken with
        | some e => simp only [LocalRun.step, hpl, if_true, Option.map_some]; exact ⟨_, by simp, rfl⟩
        | none => cases m.run.step .readErr <;> exact ⟨_, by simp, rfl⟩

/-- **C121** It does not spin: while nobody else does anything, the task makes only so many moves, whatever its `select!`s
choose. -/
theorem C121_no_spin {p : RunPlan} {plugins : Nat} {acts more : List RunLoopAct} {m m' : RunLoop} (h : TaskReach p plugins acts m)
    (hc : more.all taskMove = true) (hm : runs RunLoop.step m more = some m') :
    more.length ≤ 20 * unreadLines m.run + plugins + 99 := by
  have h1 := runWork_runs (runInv_reach h) (runShort_reach h) hc hm
  have h2 := runWork_bound (runInv_reach h) (runShort_reach h)
  obtain ⟨lacts, l, hl, ⟨he, -⟩, -⟩ := runner_runs_local h
  have h3 : m.run.plugins = plugins := by rw [he]; exact (local_reach hl).2.plugins
  omega

/-- **C121** Where that leads: when the task has no move left, it is over, or it sleeps and there is nothing to do. -/
theorem C121_settles {p : RunPlan} {plugins : Nat} {acts : List RunLoopAct} {m : RunLoop} (h : TaskReach p plugins acts m)
    (hq : TaskRests m) : m.run.pc = .done ∨ (RunnerAsleep m ∧ NothingReady m) := by
  by_cases hf : m.run.pc = .done
  · exact .inl hf
  · by_cases ha : RunnerAsleep m
    · exact .inr ⟨ha, C121_asleep h ha⟩
    · obtain ⟨a, m', hm, hs⟩ := C121_not_stuck h ha hf (.inl rfl) (.inl rfl) true
      have : taskMove a = true := by
        simp only [List.mem_cons, List.not_mem_nil, or_false] at hm
        rcases hm with rfl | rfl | rfl | rfl | rfl | rfl | rfl | rfl | rfl | rfl | rfl | rfl | rfl <;> rfl
      rw [hq a this] at hs
      cases hs

/-- **C121** Left to itself the task comes to rest. -/
theorem C121_rests {p : RunPlan} {plugins : Nat} {acts : List RunLoopAct} {m : RunLoop} (h : TaskReach p plugins acts m) :
    ∃ rest m', rest.all taskMove = true ∧ runs RunLoop.step m rest = some m' ∧ TaskRests m' := by
  obtain ⟨n, hn⟩ : ∃ n, m.work = n := ⟨_, rfl⟩
  induction n using Nat.strongRecOn generalizing m acts with
  | _ n ih =>
    by_cases hq : TaskRests m
    · exact ⟨[], m, rfl, rfl, hq⟩
    · obtain ⟨a, hq⟩ := Classical.not_forall.1 hq
      obtain ⟨ha, hs⟩ := Classical.not_imp.1 hq
      obtain ⟨m1, h1⟩ := Option.ne_none_iff_exists'.1 hs
      have hw := (runWork_step (runInv_reach h) (runShort_reach h) ha h1).1
      obtain ⟨rest, m', k1, k2, k3⟩ := ih m1.work (by omega) (acts := acts ++ [a]) (runs_snoc.2 ⟨m, h, h1⟩) rfl
      exact ⟨a :: rest, m', by simp [ha, k1], by simp [runs, h1, k2], k3⟩

/-- A task that is over is stuck. -/
theorem done_stuck {l : LocalRun} (h : l.pc = .done) : TaskStuck l := by
  intro a ha hf
  cases a <;> simp only [LocalAct.own, isFailure, reduceCtorEq, Bool.true_eq_false, Bool.false_eq_true] at ha hf <;>
    simp [LocalRun.step, h]

/-- **C121** And it ends: wherever the task comes to rest, if its process, if any, is over, the step's stream has its result;
and if the step's signal is set the task is over, with all plugins called, whatever the process does. -/
theorem C121_ends {p : RunPlan} {plugins : Nat} {acts : List RunLoopAct} {m : RunLoop} (h : TaskReach p plugins acts m)
    (hq : TaskRests m) :
    (ProcessOver m.run → m.run.stream.result ≠ none) ∧
    (m.run.sig.signal ≠ none → m.run.pc = .done ∧ m.run.afterCalls = plugins ∧ m.run.stream.result ≠ none) := by
  obtain ⟨lacts, l, hl, he, -⟩ := runner_runs_local h
  have hk := local_reach hl
  have e := he.1
  refine ⟨fun ho => ?_, fun hs => ?_⟩
  · have hstuck : TaskStuck m.run := by
      rcases C121_settles h hq with hd | ⟨-, hn⟩
      · exact done_stuck hd
      · exact nothing_stuck hn
    have hover : ProcessOver l := by
      intro ch hch
      exact ho ch (by rw [e]; exact hch)
    obtain ⟨r, hr⟩ := C63_ends p plugins lacts l hl (sameTask_stuck he hstuck) hover
    rw [e]
    simp only [hr]
    simp
  · have hd : m.run.pc = .done := by
      rcases C121_settles h hq with hd | ⟨-, hn⟩
      · exact hd
      · exact absurd hn.1 hs
    have hd' : l.pc = .done := by rw [e] at hd; exact hd
    refine ⟨hd, ?_, ?_⟩
    · rw [e]
      show l.afterCalls = plugins
      rw [hk.2.calls, hd']; exact hk.2.plugins
    · have h1 := hk.1
      simp only [ResOk, hd'] at h1
      rw [e]
      simp only [h1]
      simp

/-- **C121** `LocalRun`, in which one iteration of the `select!`s is one move, allows everything the task does: for every
schedule there is one of `LocalRun` with the same moves of the process and the engine in the same order, that gets to the same
state.  So whatever holds of every execution in `LocalRun` (C63, C64, C65, C67, C71) holds of the task. -/
theorem C121_refines {p : RunPlan} {plugins : Nat} {acts : List RunLoopAct} {m : RunLoop} (h : TaskReach p plugins acts m) :
    ∃ lacts l, LocalReach p plugins lacts l ∧ SameTaskState l m.run ∧
      lacts.filter (fun b => !b.own) = acts.filterMap surroundingsOf := runner_runs_local h

/-! ## Examples -/

namespace RunLoopEx

def init (k : ExecKind) : RunLoop := { run := LocalRun.initial (LocalEx.plan k) 1 }

/-- The process is started and writes a line after stdout was polled and before the task sleeps; the task is woken, reads it,
and sleeps. -/
def quiet : List RunLoopAct :=
  [.own .begin_, .own .mkdirOk, .own .entryOk, .select [.command, .signal], .poll, .spawn true, .inner [.out, .err], .poll,
    .env (.childOut "a"), .poll, .poll, .poll, .park, .repoll [.signal, .command], .poll, .poll, .inner [.out, .err], .poll,
    .inner [.err, .out], .poll, .poll, .poll, .park]

/-- The same, then the step is cancelled while the process runs. -/
def cancelled : List RunLoopAct := quiet ++
  [.env (.setSignal .cancel), .repoll [.command, .signal], .poll, .inner [.out, .err], .poll, .poll, .poll, .poll, .own .killDone,
    .own .removeOk, .own .finish, .own .hook, .own .hook]

/-- The same, but the process ends. -/
def over : List RunLoopAct := quiet ++
  [.env .closeErr, .env .closeOut, .env (.exit (some 3)), .repoll [.command, .signal], .poll, .inner [.out, .err], .poll, .poll,
    .poll, .park]

/-- The process writes a line and ends before the task looks; the task polls stderr first. -/
def lost : List RunLoopAct :=
  [.own .begin_, .own .mkdirOk, .own .entryOk, .select [.command, .signal], .poll, .spawn true, .env (.childOut "hello"),
    .env .closeOut, .env .closeErr, .env (.exit (some 0)), .inner [.err, .out], .poll, .poll, .poll, .park]

example : ∃ m, TaskReach (LocalEx.plan .docker) 1 quiet m ∧ RunnerAsleep m ∧ m.run.stream.logs = [⟨.log, "a"⟩] ∧
    m.run.sig.waker = some 0 ∧ m.outWaits = true ∧ m.errWaits = true :=
  ⟨(runs RunLoop.step (init .docker) quiet).get (by decide +kernel), by unfold TaskReach; decide +kernel,
    ⟨by decide +kernel, by decide +kernel⟩, by decide +kernel, by decide +kernel, by decide +kernel, by decide +kernel⟩

example : ∃ m, TaskReach (LocalEx.plan .docker) 1 cancelled m ∧ m.run.pc = .done ∧ m.run.sig.signal = some .cancel ∧
    m.run.stream.result = some .cancelled ∧ m.run.afterCalls = 1 ∧ m.run.kills ≠ [] :=
  ⟨(runs RunLoop.step (init .docker) cancelled).get (by decide +kernel), by unfold TaskReach; decide +kernel,
    by decide +kernel, by decide +kernel, by decide +kernel, by decide +kernel, by decide +kernel⟩

/-- C121_ends, first part, does not say more than it can: the step has its result and the task sleeps on (`C64_never_cleaned_refuted`). -/
example : ∃ m, TaskReach (LocalEx.plan .docker) 1 over m ∧ RunnerAsleep m ∧ m.run.stream.result = some (.failed 3) ∧
    m.run.dirThere = true :=
  ⟨(runs RunLoop.step (init .docker) over).get (by decide +kernel), by unfold TaskReach; decide +kernel,
    ⟨by decide +kernel, by decide +kernel⟩, by decide +kernel, by decide +kernel⟩

/-- The output lost in `C65_refuted` is lost at this level of detail, too. -/
example : ∃ m, TaskReach (LocalEx.plan .docker) 1 lost m ∧ RunnerAsleep m ∧ m.run.stream.result = some .succeeded ∧
    m.run.stream.logs = [] ∧ m.run.outWritten = ["hello"] ∧ m.outBroken = none ∧ m.errBroken = none :=
  ⟨(runs RunLoop.step (init .docker) lost).get (by decide +kernel), by unfold TaskReach; decide +kernel,
    ⟨by decide +kernel, by decide +kernel⟩, by decide +kernel, by decide +kernel, by decide +kernel, by decide +kernel,
    by decide +kernel⟩

end RunLoopEx

end AstroRun
