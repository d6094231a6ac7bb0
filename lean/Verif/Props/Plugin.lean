import Verif.Spec.Plugin
import Verif.Model.Job

/-! # C42, C43: observers -/

namespace AstroRun
open Spec

theorem HookWorld.call_calls (w : HookWorld) (i : Nat) (o : Observer) (e : Event) :
    (w.call i o e).calls = w.calls ++ [(i, e)] := by
  unfold HookWorld.call; split <;> rfl

theorem HookWorld.driver_calls (w : HookWorld) (e : Event) (i : Nat) (os : List Observer) :
    (w.driver e i os).calls = w.calls ++ (List.range' i os.length).map (fun j => (j, e)) := by
  induction os generalizing w i with
  | nil => simp [HookWorld.driver]
  | cons o os ih => simp [HookWorld.driver, ih, HookWorld.call_calls, List.range'_succ]

theorem HookWorld.notify_calls (plugins : List Observer) (runner : Observer) (w : HookWorld) (e : Event) :
    (w.notify plugins runner e).calls =
      w.calls ++ (List.range (plugins.length + 1)).map (fun j => (j, e)) := by
  simp [HookWorld.notify, HookWorld.call_calls, HookWorld.driver_calls, List.range_succ,
    List.range_eq_range']

theorem callsFor_append (n : Nat) (a b : List Event) : callsFor n (a ++ b) = callsFor n a ++ callsFor n b := by
  simp [callsFor]

theorem foldl_log_calls (plugins : List Observer) (runner : Observer) (id : StepId) (logs : List Log)
    (w : HookWorld) :
    (logs.foldl (fun w l => HookWorld.notify plugins runner w (.log id l)) w).calls =
      w.calls ++ callsFor plugins.length (logs.map (.log id)) := by
  induction logs generalizing w with
  | nil => simp [callsFor]
  | cons l ls ih =>
    simp only [List.foldl_cons, ih, HookWorld.notify_calls]
    simp [callsFor, recipients]

theorem stepRunH_spec (plugins : List Observer) (runner : Observer) (w : HookWorld) (e : StepEnv) (s : Step) :
    let e' := e.withBefore (callBeforeRunStep plugins runner)
    (stepRunH plugins runner w e s).2 = (stepRun e' s).2 ∧
    (stepRunH plugins runner w e s).1.calls = w.calls ++ callsFor plugins.length (stepRun e' s).1 := by
  intro e'
  simp only [stepRunH, stepRun, e', StepEnv.withBefore]
  cases e.outcome with
  | refused x =>
    refine ⟨rfl, ?_⟩
    simp [HookWorld.notify_calls, HookWorld.runnerRun, callsFor, recipients]
  | ended logs r =>
    refine ⟨rfl, ?_⟩
    simp only [HookWorld.notify_calls, foldl_log_calls, HookWorld.runnerRun]
    simp [callsFor, recipients]

@[simp] theorem withBefore_condition (e : StepEnv) (f : Step → Step) : (e.withBefore f).condition = e.condition := rfl

theorem jobLoopH_spec (plugins : List Observer) (runner : Observer) (ps : List (Step × StepEnv)) (w : HookWorld)
    (tr : List Event) (rs : List StepRunResult) (st : WorkflowState) :
    let ps' := ps.map fun p => (p.1, p.2.withBefore (callBeforeRunStep plugins runner))
    let acc := ps'.foldl JobAcc.step ⟨tr, rs, st⟩
    (jobLoopH plugins runner ps w rs st).2 = (acc.results, acc.state) ∧
    ∃ tr', acc.trace = tr ++ tr' ∧
      (jobLoopH plugins runner ps w rs st).1.calls = w.calls ++ callsFor plugins.length tr' := by
  induction ps generalizing w tr rs st with
  | nil => exact ⟨rfl, [], by simp, by simp [jobLoopH, callsFor]⟩
  | cons p ps ih =>
    obtain ⟨s, e⟩ := p
    simp only [jobLoopH, List.map_cons, List.foldl_cons]
    by_cases hs : stepSkipped st s e.condition = true
    · simp only [withBefore_condition, hs, if_true, JobAcc.step]
      obtain ⟨h1, tr', h2, h3⟩ := ih (HookWorld.notify plugins runner w (.stepState s.id .skipped))
        (tr ++ [.stepState s.id .skipped]) (rs ++ [skippedResult s.id]) st
      refine ⟨h1, .stepState s.id .skipped :: tr', by rw [h2]; simp, ?_⟩
      rw [h3, HookWorld.notify_calls]
      simp [callsFor, recipients]
    · simp only [withBefore_condition, hs, if_false, JobAcc.step]
      obtain ⟨e1, e2⟩ := stepRunH_spec plugins runner w e s
      obtain ⟨h1, tr', h2, h3⟩ := ih (stepRunH plugins runner w e s).1
        (tr ++ (stepRun (e.withBefore (callBeforeRunStep plugins runner)) s).1)
        (rs ++ [(stepRun (e.withBefore (callBeforeRunStep plugins runner)) s).2])
        (nextJobState st (stepRun (e.withBefore (callBeforeRunStep plugins runner)) s).2)
      simp only [Bool.false_eq_true, if_false]
      rw [e1]
      refine ⟨h1, _, by rw [h2, List.append_assoc], ?_⟩
      rw [h3, e2, callsFor_append, List.append_assoc]

/-- **C42** Whatever the hooks answer, running a job makes exactly these hook calls: for each notification of
the run, in order, one call to every plugin in registration order and then one to the runner.  The result is
the one of the run without any observer; the before-step hooks (C43) are their only influence. -/
theorem C42_every_observer_every_notification (plugins : List Observer) (runner : Observer) (w : HookWorld)
    (env : JobEnv) (job : Job) :
    let env' : JobEnv := env.withBefore (callBeforeRunStep plugins runner)
    (jobRunH plugins runner w env job).2 = (jobRun env' job).2 ∧
    (jobRunH plugins runner w env job).1.calls =
      w.calls ++ callsFor plugins.length (jobRun env' job).1 := by
  intro env'
  have hse : job.stepEnvs env' =
      (job.stepEnvs env).map fun p => (p.1, p.2.withBefore (callBeforeRunStep plugins runner)) := by
    simp [Job.stepEnvs, env', JobEnv.withBefore]
  unfold jobRunH jobRun
  by_cases hs : shouldSkip job.on env.condition = true
  · have hs' : shouldSkip job.on env'.condition = true := hs
    simp only [hs, hs', if_true]
    refine ⟨trivial, ?_⟩
    rw [HookWorld.notify_calls]
    simp [callsFor, recipients]
  · have hs' : ¬ shouldSkip job.on env'.condition = true := hs
    simp only [hs, hs', if_false, Bool.false_eq_true]
    obtain ⟨h1, tr', h2, h3⟩ := jobLoopH_spec plugins runner (job.stepEnvs env)
      ((w.notify plugins runner (.runJob job.id)).notify plugins runner (.jobState job.id .inProgress))
      [.runJob job.id, .jobState job.id .inProgress] [] .inProgress
    have h1a := congrArg Prod.fst h1
    have h1b := congrArg Prod.snd h1
    simp only at h1a h1b h2
    simp only [JobAcc.finish, JobAcc.start, hse, h1a, h1b, HookWorld.notify_calls, h3]
    refine ⟨rfl, ?_⟩
    simp [h2, callsFor, recipients]
    exact fun _ _ => ⟨rfl, rfl⟩

/-- What one observer sees: plugin `i` every notification once, in order (all but the calls of
`Runner::run`), and the runner everything. -/
theorem C42_seen_by (plugins : List Observer) (runner : Observer) (env : JobEnv) (job : Job) :
    let env' : JobEnv := env.withBefore (callBeforeRunStep plugins runner)
    (∀ i, i < plugins.length → ((jobRunH plugins runner {} env job).1.seenBy i) =
      (jobRun env' job).1.filter (fun e => match e with | .runnerRun _ => false | _ => true)) ∧
    ((jobRunH plugins runner {} env job).1.seenBy plugins.length) = (jobRun env' job).1 := by
  intro env'
  have h := (C42_every_observer_every_notification plugins runner {} env job).2
  have hfil : ∀ (i n : Nat) (e : Event), i < n →
      (((List.range n).map (fun j => (j, e))).filter (fun c => c.1 == i)).map Prod.snd = [e] := by
    intro i n e hi
    have hfc : ((fun c : Nat × Event => c.1 == i) ∘ fun j => (j, e)) = fun j => j == i := by
      funext j; simp
    rw [List.filter_map, hfc]
    have : (List.range n).filter (fun j => j == i) = [i] := by
      induction n with
      | zero => omega
      | succ n ih =>
        rw [List.range_succ, List.filter_append]
        by_cases hin : i < n
        · rw [ih hin]
          have : (n == i) = false := by simp; omega
          simp [this]
        · have : i = n := by omega
          subst this
          have : (List.range i).filter (fun j => j == i) = [] := by
            rw [List.filter_eq_nil_iff]
            intro a ha; simp at ha ⊢; omega
          simp [this]
    simp [this]
  simp only [HookWorld.seenBy, h]
  generalize (jobRun env' job).1 = tr
  have happ : ∀ (i : Nat) (es : List Event),
      ((callsFor plugins.length es).filter (fun c => c.1 == i)).map Prod.snd =
        es.flatMap fun e => (((recipients plugins.length e).map (fun j => (j, e))).filter
          (fun c => c.1 == i)).map Prod.snd := by
    intro i es
    induction es with
    | nil => rfl
    | cons e es ih =>
      simp only [callsFor, List.flatMap_cons, List.filter_append, List.map_append] at ih ⊢
      rw [ih]
  refine ⟨fun i hi => ?_, ?_⟩
  · rw [show (({} : HookWorld).calls ++ callsFor plugins.length tr) = callsFor plugins.length tr from rfl, happ]
    induction tr with
    | nil => rfl
    | cons e es ih =>
      simp only [List.flatMap_cons, ih]
      cases e <;> simp only [recipients, hfil i (plugins.length + 1) _ (by omega), List.filter_cons] <;> simp
      omega
  · rw [show (({} : HookWorld).calls ++ callsFor plugins.length tr) = callsFor plugins.length tr from rfl, happ]
    induction tr with
    | nil => rfl
    | cons e es ih =>
      simp only [List.flatMap_cons, ih]
      cases e <;> simp [recipients, hfil plugins.length (plugins.length + 1) _ (by omega)]

/-- **C43** The step handed to the runner and announced by `on_run_step` is the configured one passed through
the plugins' before-step hooks in order, then the runner's; failing hooks leave it as it was. -/
theorem C43_before_step_rewriting (plugins : List Observer) (runner : Observer) (w : HookWorld) (e : StepEnv)
    (step : Step) :
    ∃ s, PassesAll (plugins ++ [runner]) step s ∧
      (∀ s', PassesAll (plugins ++ [runner]) step s' → s' = s) ∧
      (plugins.length, Event.runnerRun s.toCommand) ∈ (stepRunH plugins runner w e step).1.calls ∧
      (∀ i, i ≤ plugins.length → (i, Event.runStep s) ∈ (stepRunH plugins runner w e step).1.calls) ∧
      (stepRunH plugins runner w e step).2.id = s.id := by
  have hone : ∀ o s s1 s2, Passes o s s1 → Passes o s s2 → s1 = s2 := by
    intro o s s1 s2 h1 h2
    cases h1 with
    | ok _ h1 => cases h2 with
      | ok _ h2 => rw [h1] at h2; exact Except.ok.inj h2
      | failed _ h2 => rw [h1] at h2; simp at h2
    | failed _ h1 => cases h2 with
      | ok _ h2 => rw [h1] at h2; simp at h2
      | failed _ h2 => rfl
  have hall : ∀ os s s1 s2, PassesAll os s s1 → PassesAll os s s2 → s1 = s2 := by
    intro os
    induction os with
    | nil => intro s s1 s2 h1 h2; cases h1; cases h2; rfl
    | cons o os ih =>
      intro s s1 s2 h1 h2
      cases h1 with
      | cons _ _ _ a _ p1 q1 => cases h2 with
        | cons _ _ _ b _ p2 q2 =>
          have := hone _ _ _ _ p1 p2
          subst this
          exact ih _ _ _ q1 q2
  have hpass : PassesAll (plugins ++ [runner]) step (callBeforeRunStep plugins runner step) := by
    unfold callBeforeRunStep
    have : ∀ (os : List Observer) (s : Step),
        PassesAll (os ++ [runner]) s (match runner.onBeforeRunStep (driverBeforeRunStep os s) with
          | .ok s2 => s2 | .error _ => driverBeforeRunStep os s) := by
      intro os
      induction os with
      | nil =>
        intro s
        simp only [driverBeforeRunStep, List.nil_append]
        rcases h : runner.onBeforeRunStep s with x | s2
        · exact .cons _ _ _ _ _ (.failed _ h) (.nil _)
        · exact .cons _ _ _ _ _ (.ok _ h) (.nil _)
      | cons o os ih =>
        intro s
        simp only [driverBeforeRunStep, List.cons_append]
        rcases h : o.onBeforeRunStep s with x | s2
        · exact .cons _ _ _ _ _ (.failed _ h) (ih s)
        · exact .cons _ _ _ _ _ (.ok _ h) (ih s2)
    exact this plugins step
  obtain ⟨h1, h2⟩ := stepRunH_spec plugins runner w e step
  refine ⟨_, hpass, fun s' h => hall _ _ _ _ h hpass, ?_, ?_, ?_⟩
  · rw [h2]
    simp only [List.mem_append]
    right
    simp only [callsFor, List.mem_flatMap]
    refine ⟨.runnerRun (callBeforeRunStep plugins runner step).toCommand, ?_, by simp [recipients]⟩
    simp only [stepRun, StepEnv.withBefore]
    cases e.outcome <;> simp
  · intro i hi
    rw [h2]
    simp only [List.mem_append]
    right
    simp only [callsFor, List.mem_flatMap]
    refine ⟨.runStep (callBeforeRunStep plugins runner step), ?_, by simp [recipients]; omega⟩
    simp only [stepRun, StepEnv.withBefore]
    cases e.outcome <;> simp
  · rw [h1]
    simp only [stepRun, StepEnv.withBefore]
    cases e.outcome with
    | refused x => rfl
    | ended logs r => cases r <;> rfl

/-! ## Witnesses -/

namespace PluginEx
/-- a plugin whose every hook fails -/
def bad : Observer := { onEvent := fun _ _ => .error (.error "boom"), onBeforeRunStep := fun _ => .error (.error "no") }
/-- a plugin that renames steps -/
def renamer : Observer := { onBeforeRunStep := fun s => .ok { s with name := some "renamed" } }
/-- a step -/
def st : Step := { id := ⟨"w", "j", 0⟩, run := "true" }
end PluginEx

example : callBeforeRunStep [PluginEx.bad, PluginEx.renamer] PluginEx.bad PluginEx.st =
    { PluginEx.st with name := some "renamed" } := by decide

example : (jobRunH [PluginEx.bad, PluginEx.renamer] PluginEx.bad {} {}
      { id := ⟨"w", "j"⟩, steps := [PluginEx.st] }).2.state = .succeeded ∧
    ((jobRunH [PluginEx.bad, PluginEx.renamer] PluginEx.bad {} {}
      { id := ⟨"w", "j"⟩, steps := [PluginEx.st] }).1.seenBy 1).length = 9 := by decide

end AstroRun
