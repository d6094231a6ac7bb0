import Verif.Spec.Builders
import Verif.Lemmas.Map
import Verif.Lemmas.Parser
import Mathlib.Data.List.Induction

/-! # C70, C72-C77: builders; plugins and memory of the local runner -/

namespace AstroRun
open AstroRun.Spec

theorem lastSome_nil {α β : Type} (f : α → Option β) : lastSome f [] = none := rfl
theorem lastSome_snoc {α β : Type} (f : α → Option β) (l : List α) (a : α) :
    lastSome f (l ++ [a]) = (f a).or (lastSome f l) := by
  unfold lastSome
  rw [List.filterMap_append]
  cases h : f a <;> simp [h]

/-! ## C70: plugins of the local runner -/

theorem pluginsBefore_through (past : Nat → List RunnerContext) (ps : List RunnerPlugin) (i : Nat) (c : RunnerContext) :
    ∃ cs, Through past i ps c (cs ++ [(pluginsBefore past i ps c).1]) ∧ cs.length = ps.length ∧
      (pluginsBefore past i ps c).2 = (List.range' i ps.length).zip cs := by
  induction ps generalizing i c with
  | nil => exact ⟨[], .nil i c, rfl, rfl⟩
  | cons p ps ih =>
    cases h : p.before (past i) c with
    | ok c' =>
      obtain ⟨cs, h1, h2, h3⟩ := ih (i + 1) c'
      refine ⟨c :: cs, ?_, by simp [h2], ?_⟩
      · simp only [pluginsBefore, h]
        exact .ok i p ps c c' _ h h1
      · simp only [pluginsBefore, h, h3]
        rfl
    | error e =>
      obtain ⟨cs, h1, h2, h3⟩ := ih (i + 1) c
      refine ⟨c :: cs, ?_, by simp [h2], ?_⟩
      · simp only [pluginsBefore, h]
        exact .failed i p ps c e _ h h1
      · simp only [pluginsBefore, h, h3]
        rfl

/-- **C70** (before): the local runner shows the context to its plugins one after the other, each one seeing what
the previous ones made of it, a failing one changing nothing; each is asked exactly once; and what is executed
(executor, directories, process, remembered event) is determined by the outcome. -/
theorem C70_before_run (os arch wd : String) (plugins : List RunnerPlugin) (past : Nat → List RunnerContext)
    (m : RunnerMem) (ctx : RunnerContext) (envs : List (String × String)) :
    ∃ cs out, Through past 0 plugins ctx (cs ++ [out]) ∧
      (pluginsBefore past 0 plugins ctx).2 = (List.range plugins.length).zip cs ∧ cs.length = plugins.length ∧
      let r := startRun os arch wd plugins past m ctx envs
      r.2.ctx = out ∧ r.2.kind = createExecutor os arch out.command ∧
      r.2.dirs = Metadata.build wd (out.event.map fun e => (e.repoOwner, e.repoName)) out.command.id ∧
      r.2.process = stepProcess os arch wd out.command out.event envs ∧
      r.1 = m.noteRun out.command out.event := by
  obtain ⟨cs, h1, h2, h3⟩ := pluginsBefore_through past plugins 0 ctx
  exact ⟨cs, _, h1, by rw [h3, List.range_eq_range'], h2, rfl, rfl, rfl, rfl, rfl⟩

/-- **C70** (after): every plugin is called exactly once with that context, in order, whatever the others answer. -/
theorem C70_after_run (past : Nat → List RunnerContext) (c : RunnerContext) (plugins : List RunnerPlugin) :
    (pluginsAfter past c 0 plugins).1 = (List.range plugins.length).map fun i => (i, c) := by
  have : ∀ i, (pluginsAfter past c i plugins).1 = (List.range' i plugins.length).map fun j => (j, c) := by
    intro i
    induction plugins generalizing i with
    | nil => rfl
    | cons p ps ih =>
      simp only [pluginsAfter, List.length_cons, List.range'_succ, List.map_cons]
      cases p.after (past i) c <;> simp [ih (i + 1)]
  rw [this 0, List.range_eq_range']

/-- Examples: a plugin that renames the step's script, one that fails. -/
def HookEx.rename (s : String) : RunnerPlugin :=
  { before := fun _ c => .ok { c with command := { c.command with run := c.command.run ++ s } } }
/-- see `HookEx.rename` -/
def HookEx.failing : RunnerPlugin :=
  { before := fun _ _ => .error (.error "no"), after := fun _ _ => .error (.error "no") }
/-- see `HookEx.rename` -/
def HookEx.ctx : RunnerContext := { command := { id := ⟨"w", "j", 0⟩, run := "a", timeout := 1 } }

example : (pluginsBefore (fun _ => []) 0 [HookEx.rename "b", HookEx.failing, HookEx.rename "c"] HookEx.ctx).1.command.run
      = "abc" ∧
    ((pluginsBefore (fun _ => []) 0 [HookEx.rename "b", HookEx.failing, HookEx.rename "c"] HookEx.ctx).2.map
      fun c => (c.1, c.2.command.run)) = [(0, "a"), (1, "ab"), (2, "ab")] ∧
    (pluginsAfter (fun _ => []) HookEx.ctx 0 [HookEx.failing, HookEx.rename "b"]).1.map Prod.fst = [0, 1] := by
  refine ⟨by decide, by decide, by decide⟩

/-! ## C72: construction of the local runner -/

/-- **C72** The runner uses the last working directory given, or else `astro-run` in the home directory; with neither,
construction fails; its plugins are those given, in order. -/
theorem C72_runner_builder (cs : List RunnerCall) (home : Option String) :
    let dir := lastSome (fun c => match c with | .workingDirectory d => some d | _ => none) cs
    let plugins := cs.filterMap fun c => match c with | .plugin p => some p | _ => none
    (cs.foldl RunnerBuilder.call {}).build home =
      match dir, home with
      | some d, _ => .ok (d, plugins)
      | none, some h => .ok (pathJoin h "astro-run", plugins)
      | none, none => .error (.initError "AstroRunnerBuilder: working_directory is required") := by
  have key : (cs.foldl RunnerBuilder.call {}).workingDirectory =
        lastSome (fun c => match c with | .workingDirectory d => some d | _ => none) cs ∧
      (cs.foldl RunnerBuilder.call {}).plugins = cs.filterMap fun c => match c with | .plugin p => some p | _ => none := by
    induction cs using List.reverseRecOn with
    | nil => exact ⟨rfl, rfl⟩
    | append_singleton cs c ih =>
      rw [List.foldl_append, lastSome_snoc, List.filterMap_append, ← ih.1, ← ih.2]
      cases c <;> simp [RunnerBuilder.call]
  simp only [RunnerBuilder.build, key.1, key.2, buildRunner]
  cases lastSome (fun c : RunnerCall => match c with | .workingDirectory d => some d | _ => none) cs <;> cases home <;> rfl

/-- **C72** Without a working directory, in a home directory given without a final slash: `<home>/astro-run`. -/
theorem C72_default_directory (cs : List RunnerCall) (hcs : ∀ d, RunnerCall.workingDirectory d ∉ cs) (home : String)
    (c : Char) (hc : home.toList.getLast? = some c) (hs : c ≠ '/') :
    ∃ plugins, (cs.foldl RunnerBuilder.call {}).build (some home) = .ok (home ++ "/astro-run", plugins) := by
  have hnone : lastSome (fun c => match c with | .workingDirectory d => some d | _ => none) cs = none := by
    induction cs using List.reverseRecOn with
    | nil => rfl
    | append_singleton cs c ih =>
      rw [lastSome_snoc, ih (fun d hd => hcs d (by simp [hd]))]
      cases c with
      | workingDirectory d => exact absurd (by simp) (hcs d)
      | plugin => rfl
  have hj : pathJoin home "astro-run" = home ++ "/astro-run" := by
    have h1 : ¬ "astro-run".toList.head? = some '/' := by decide
    rw [pathJoin, if_neg h1, hc, if_pos (by simp [hs]), String.append_assoc]
    rfl
  have := C72_runner_builder cs (some home)
  simp only [hnone, hj] at this
  exact ⟨_, this⟩

example : (([] : List RunnerCall).foldl RunnerBuilder.call {}).build (some "/home/me") = .ok ("/home/me/astro-run", []) :=
  rfl

example : (([.workingDirectory "/a", .workingDirectory "/b"] : List RunnerCall).foldl RunnerBuilder.call {}).build none
    = .ok ("/b", []) := rfl

/-! ## C73: the local runner's memory of workflows -/

/-- **C73 (partial)** What is remembered for a workflow is the event of the last step of it that was run with an
event.  Missing: it is never forgotten (`C73_refuted`). -/
theorem C73_last_event_partial (ops : List MemOp) (w : WorkflowId) :
    (memHistory ops).workflowEvents.get? w =
      lastSome (fun o => match o with
        | .run c (some ev) => if c.id.workflowId = w then some ev else none
        | _ => none) ops := by
  induction ops using List.reverseRecOn with
  | nil => rfl
  | append_singleton ops o ih =>
    rw [lastSome_snoc, ← ih]
    unfold memHistory
    rw [List.foldl_append, List.foldl_cons, List.foldl_nil]
    rcases o with ⟨c, _ | ev⟩ | w'
    · simp [RunnerMem.noteRun]
    · simp only [RunnerMem.noteRun]
      rw [AMap.get?_insert]
      by_cases h : c.id.workflowId = w <;> simp [h]
    · simp

/-- **C73 is false of the code**: what was remembered for a workflow is remembered for ever, whether the workflow
has completed or not. -/
theorem C73_refuted (ops ops' : List MemOp) (w : WorkflowId)
    (h : ((memHistory ops).workflowEvents.get? w).isSome = true) :
    ((memHistory (ops ++ ops')).workflowEvents.get? w).isSome = true := by
  induction ops' using List.reverseRecOn with
  | nil => simpa using h
  | append_singleton ops' o ih =>
    rw [← List.append_assoc, C73_last_event_partial, lastSome_snoc, ← C73_last_event_partial]
    rw [Option.isSome_or, ih, Bool.or_true]

example : ((memHistory [.run HookEx.ctx.command (some ⟨"push", "o", "r", none, "", "", ""⟩),
    .completed ⟨"w"⟩]).workflowEvents.get? ⟨"w"⟩).isSome = true := by decide

/-! ## C74: construction of the engine -/

theorem engine_calls {ρ : Type} (cs : List (EngineCall ρ)) :
    let b := cs.foldl EngineBuilder.call ({} : EngineBuilder ρ)
    b.runner = lastSome (fun c => match c with | .runner r => some r | _ => none) cs ∧
    b.plugins = (cs.filterMap fun c => match c with | .plugin p => some p | _ => none) ∧
    (∀ n, b.actions.get? n =
      lastSome (fun c => match c with | .action n' a => if n' = n then some a else none | _ => none) cs) ∧
    b.githubAuth = lastSome (fun c => match c with
      | .githubPersonalToken t => some (.personalAccessToken t)
      | .githubApp i k => some (.githubApp i k)
      | _ => none) cs := by
  induction cs using List.reverseRecOn with
  | nil => exact ⟨rfl, rfl, fun _ => rfl, rfl⟩
  | append_singleton cs c ih =>
    obtain ⟨h1, h2, h3, h4⟩ := ih
    simp only [List.foldl_append, List.foldl_cons, List.foldl_nil, lastSome_snoc, List.filterMap_append]
    rw [← h1, ← h2, ← h4]
    refine ⟨?_, ?_, fun n => ?_, ?_⟩
    · cases c <;> simp [EngineBuilder.call]
    · cases c <;> simp [EngineBuilder.call]
    · rw [← h3 n]
      cases c with
      | action n' a =>
        simp only [EngineBuilder.call]
        rw [AMap.get?_insert]
        by_cases h : n' = n <;> simp [h]
      | _ => simp [EngineBuilder.call]
    · cases c <;> simp [EngineBuilder.call]

/-- **C74** For every sequence of builder calls: `build` panics exactly when no runner was given; otherwise the engine
uses the last runner given, all plugins in the order given, for each name the last action registered under it, and
the last GitHub authorization given. -/
theorem C74_engine_builder {ρ : Type} (cs : List (EngineCall ρ)) :
    let runner := lastSome (fun c => match c with | .runner r => some r | _ => none) cs
    match (cs.foldl EngineBuilder.call ({} : EngineBuilder ρ)).build with
    | none => runner = none
    | some e => runner = some e.runner ∧
      e.plugins = (cs.filterMap fun c => match c with | .plugin p => some p | _ => none) ∧
      (∀ n, e.actions.get? n =
        lastSome (fun c => match c with | .action n' a => if n' = n then some a else none | _ => none) cs) ∧
      e.githubAuth = lastSome (fun c => match c with
        | .githubPersonalToken t => some (.personalAccessToken t)
        | .githubApp i k => some (.githubApp i k)
        | _ => none) cs := by
  obtain ⟨h1, h2, h3, h4⟩ := engine_calls cs
  simp only [EngineBuilder.build]
  rw [← h1]
  cases hr : (cs.foldl EngineBuilder.call ({} : EngineBuilder ρ)).runner with
  | none => rfl
  | some r => exact ⟨rfl, h2, h3, h4⟩

/-- An action registered by that name is the one a `uses` step is resolved with, the last one if there are several;
plugins are asked only if there is none. -/
theorem C74_action_used {ρ : Type} (cs : List (EngineCall ρ)) (e : Engine ρ)
    (he : (cs.foldl EngineBuilder.call ({} : EngineBuilder ρ)).build = some e) (d : String → Option Nat)
    (a : UserActionStep) (act : Action)
    (h : lastSome (fun c : EngineCall ρ => match c with | .action n' a' => if n' = a.uses then some a' else none | _ => none)
      cs = some act) :
    tryNormalizeAction (e.parseEnv d) a = act a := by
  have := C74_engine_builder cs
  simp only [he] at this
  have hg := this.2.2.1 a.uses
  rw [h] at hg
  simp only [tryNormalizeAction, Engine.parseEnv, actionTryNormalize, hg]
  cases act a <;> rfl

/-- If no action is registered under the name a `uses` step names, the engine's plugins are asked in the order they were
given; the first that answers resolves the step, and if none does the step is refused. -/
theorem C74_plugins_resolve {ρ : Type} (cs : List (EngineCall ρ)) (e : Engine ρ)
    (he : (cs.foldl EngineBuilder.call ({} : EngineBuilder ρ)).build = some e) (d : String → Option Nat)
    (a : UserActionStep)
    (h : ∀ n act, EngineCall.action n act ∈ cs → n ≠ a.uses) :
    (∀ before after (p : Observer) act,
      (cs.filterMap fun c => match c with | .plugin p => some p | _ => none) = before ++ p :: after →
      (∀ q ∈ before, Declines q a) → p.onResolveDynamicAction a = .ok (some act) →
      tryNormalizeAction (e.parseEnv d) a = act a) ∧
    ((∀ p, EngineCall.plugin p ∈ cs → Declines p a) →
      tryNormalizeAction (e.parseEnv d) a = .error (.workflowConfigError ("Action `" ++ a.uses ++ "` is not found"))) := by
  have hb := C74_engine_builder cs
  simp only [he] at hb
  have hp := hb.2.1
  have ha := hb.2.2.1
  clear hb
  have hg : e.actions.get? a.uses = none := by
    rw [ha]
    clear ha hp he
    induction cs using List.reverseRecOn with
    | nil => rfl
    | append_singleton cs c ih =>
      rw [lastSome_snoc]
      have ih := ih (fun n act hm => h n act (by simp [hm]))
      cases c with
      | action n' a' => simp [h n' a' (by simp), ih]
      | _ => simpa using ih
  simp only [tryNormalizeAction, Engine.parseEnv, actionTryNormalize, hg, hp]
  refine ⟨fun before after p act hpl hdec hans => ?_, fun hdec => ?_⟩
  · rw [hpl]
    rw [driverResolve_some.2 ⟨before, p, after, rfl, hdec, hans⟩]
  · rw [driverResolve_none.2]
    intro q hq
    simp only [List.mem_filterMap] at hq
    obtain ⟨c, hc, hc2⟩ := hq
    cases c <;> simp at hc2
    subst hc2
    exact hdec _ hc

/-- Example: an action. -/
def BuildEx.act (s : String) : Action := fun _ => .ok { run := .command { run := s } }

example : lastSome (fun c : EngineCall Nat => match c with | .action n' a' => if n' = "x" then some a' else none | _ => none)
    [.runner 1, .action "x" (BuildEx.act "old"), .action "y" (BuildEx.act "y"), .action "x" (BuildEx.act "new")]
      = some (BuildEx.act "new") ∧
    ((([.runner 1, .action "x" (BuildEx.act "old"), .action "x" (BuildEx.act "new")] : List (EngineCall Nat)).foldl
      EngineBuilder.call {}).build).isSome = true := ⟨rfl, rfl⟩

/-- Example: a plugin that resolves the name `y`. -/
def BuildEx.resolver : Observer :=
  { onResolveDynamicAction := fun a => if a.uses = "y" then .ok (some (BuildEx.act "dynamic")) else .ok none }

example : ∃ e : Engine Nat,
    (([.runner 1, .plugin {}, .plugin BuildEx.resolver, .action "x" (BuildEx.act "static")] :
      List (EngineCall Nat)).foldl EngineBuilder.call {}).build = some e ∧
    tryNormalizeAction (e.parseEnv fun _ => none) { uses := "y" } = .ok { run := .command { run := "dynamic" } } :=
  ⟨_, rfl, rfl⟩

/-! ## C75: execution contexts -/

/-- **C75** A context made by an engine never panics, runs with the engine's runner and plugins, and decides
conditions with the last event given, if any, and the last authorization given or else the engine's; nothing has
been looked up yet; its payload is the last one given. -/
theorem C75_context_builder {ρ Pl : Type} (e : Engine ρ) (cs : List (ContextCall Pl)) :
    (cs.foldl ContextBuilder.call (e.executionContext (Pl := Pl))).build =
      some { runner := e.runner, plugins := e.plugins
             matcher :=
              { githubAuth := (lastSome (fun c : ContextCall Pl => match c with | .githubAuth a => some a | _ => none) cs).or
                  e.githubAuth
                event := lastSome (fun c : ContextCall Pl => match c with | .event a => some a | _ => none) cs
                payload := none }
             payload := lastSome (fun c : ContextCall Pl => match c with | .payload a => some a | _ => none) cs } := by
  have key : cs.foldl ContextBuilder.call (e.executionContext (Pl := Pl)) =
      { runner := some e.runner, plugins := some e.plugins
        githubAuth := (lastSome (fun c : ContextCall Pl => match c with | .githubAuth a => some a | _ => none) cs).or
                  e.githubAuth
        event := lastSome (fun c : ContextCall Pl => match c with | .event a => some a | _ => none) cs
        payload := lastSome (fun c : ContextCall Pl => match c with | .payload a => some a | _ => none) cs } := by
    induction cs using List.reverseRecOn with
    | nil => rfl
    | append_singleton cs c ih =>
      rw [List.foldl_append, ih, lastSome_snoc, lastSome_snoc, lastSome_snoc]
      cases c <;> simp [ContextBuilder.call]
  rw [key]
  rfl

/-! ## C76: plugins made of closures -/

theorem plugin_calls (cs : List PluginCall) :
    let b := cs.foldl PluginBuilder.call {}
    (∀ k, b.notify.get? k =
      lastSome (fun c => match c with | .on k' f => if k' = k then some f else none | _ => none) cs) ∧
    b.before = lastSome (fun c => match c with | .onBeforeRunStep f => some f | _ => none) cs ∧
    b.resolve = lastSome (fun c => match c with | .onResolveDynamicAction f => some f | _ => none) cs := by
  induction cs using List.reverseRecOn with
  | nil => exact ⟨fun _ => rfl, rfl, rfl⟩
  | append_singleton cs c ih =>
    obtain ⟨h1, h2, h3⟩ := ih
    simp only [List.foldl_append, List.foldl_cons, List.foldl_nil, lastSome_snoc]
    rw [← h2, ← h3]
    refine ⟨fun k => ?_, ?_, ?_⟩
    · rw [← h1 k]
      cases c with
      | on k' f =>
        simp only [PluginBuilder.call]
        rw [AMap.get?_insert]
        by_cases h : k' = k <;> simp [h]
      | _ => simp [PluginBuilder.call]
    · cases c <;> simp [PluginBuilder.call]
    · cases c <;> simp [PluginBuilder.call]

/-- **C76** A plugin made with the builder answers each notification, before-step question and action question with
the last closure given for it; where none was given it succeeds without effect: the step stays as it is, no action is
offered. -/
theorem C76_plugin_builder (cs : List PluginCall) :
    let p := (cs.foldl PluginBuilder.call {}).build
    (∀ past e k, BelongsTo e k → p.onEvent past e =
      match lastSome (fun c => match c with | .on k' f => if k' = k then some f else none | _ => none) cs with
      | some f => f past e
      | none => .ok ()) ∧
    (∀ s, p.onBeforeRunStep s =
      match lastSome (fun c => match c with | .onBeforeRunStep f => some f | _ => none) cs with
      | some f => f s
      | none => .ok s) ∧
    (∀ a, p.onResolveDynamicAction a =
      match lastSome (fun c => match c with | .onResolveDynamicAction f => some f | _ => none) cs with
      | some f => f a
      | none => .ok none) := by
  obtain ⟨h1, h2, h3⟩ := plugin_calls cs
  refine ⟨fun past e k hk => ?_, fun s => ?_, fun a => ?_⟩
  · have hk : e.hookKind = some k := by cases hk <;> rfl
    simp only [PluginBuilder.build, hk, h1 k]
    generalize lastSome (fun c => match c with | PluginCall.on k' f => if k' = k then some f else none | _ => none) cs = o
    rcases o with _ | f
    · rfl
    · simp only
      cases hf : f past e <;> rfl
  · simp only [PluginBuilder.build, h2]
    generalize lastSome (fun c => match c with | PluginCall.onBeforeRunStep f => some f | _ => none) cs = o
    rcases o with _ | f
    · rfl
    · simp only
      cases hf : f s <;> rfl
  · simp only [PluginBuilder.build, h3]
    rfl

example : (Event.log ⟨"w", "j", 0⟩ { logType := .log, message := "x" }).hookKind = some .log ∧
    (([.on .log fun _ _ => .error (.error "e")] : List PluginCall).foldl PluginBuilder.call {}).build.onEvent []
      (.log ⟨"w", "j", 0⟩ { logType := .log, message := "x" }) = .error (.error "e") ∧
    (([.on .log fun _ _ => .error (.error "e")] : List PluginCall).foldl PluginBuilder.call {}).build.onEvent []
      (.runJob ⟨"w", "j"⟩) = .ok () := ⟨rfl, rfl, rfl⟩

/-! ## C77: the workflow builder -/

/-- **C77** The workflow is made from the last configuration given, under the last id given or else a fresh one;
without configuration, or with text that is not a configuration, building fails and says so. -/
theorem C77_workflow_builder (cs : List WorkflowCall) (env : ParseEnv) (yaml : String → Except String UserWorkflow)
    (fresh : Id) :
    (cs.foldl WorkflowBuilder.call {}).build env yaml fresh =
      match lastSome (fun c => match c with | .config x => some x | _ => none) cs with
      | none => .error (.initError "Workflow config is required")
      | some c => match yaml c with
        | .error e => .error (.workflowConfigError ("Failed to parse workflow: " ++ e))
        | .ok w =>
          buildWorkflow env ((lastSome (fun c => match c with | .id x => some x | _ => none) cs).getD fresh) w := by
  have key : (cs.foldl WorkflowBuilder.call {}).config =
        lastSome (fun c => match c with | .config x => some x | _ => none) cs ∧
      (cs.foldl WorkflowBuilder.call {}).id = lastSome (fun c => match c with | .id x => some x | _ => none) cs := by
    induction cs using List.reverseRecOn with
    | nil => exact ⟨rfl, rfl⟩
    | append_singleton cs c ih =>
      rw [List.foldl_append, lastSome_snoc, lastSome_snoc, ← ih.1, ← ih.2]
      cases c <;> simp [WorkflowBuilder.call]
  simp only [WorkflowBuilder.build, key.1, key.2]
  rfl

example : (([.id "a", .config "x", .id "b"] : List WorkflowCall).foldl WorkflowBuilder.call {}).build
    { durations := fun _ => some 3600 }
    (fun _ => .ok { jobs := [("j", { steps := [.command { run := "ls" }] })] }) "f" =
    buildWorkflow { durations := fun _ => some 3600 } "b" { jobs := [("j", { steps := [.command { run := "ls" }] })] } := rfl

end AstroRun
