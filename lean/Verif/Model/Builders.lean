import Verif.Model.Parser
import Verif.Model.Matcher
import Verif.Model.Runner

/-!
# Builders of the engine and of the local runner

A builder is used by a sequence of method calls followed by `build`.
-/

namespace AstroRun

/-! ## `AstroRunBuilder` -/

/-- crates/astro-run/src/astro_run.rs:48-54.  `ρ` is the type of runners. -/
structure EngineBuilder (ρ : Type) where
  runner : Option ρ := none
  plugins : List Observer := []
  actions : AMap String Action := []
  githubAuth : Option GithubAuthorization := none

/-- The methods (astro_run.rs:61-91). -/
inductive EngineCall (ρ : Type)
  | runner (r : ρ)
  | plugin (p : Observer)
  | action (name : String) (a : Action)
  | githubPersonalToken (t : String)
  | githubApp (appId : Nat) (key : String)

/-- One method call. -/
def EngineBuilder.call {ρ : Type} (b : EngineBuilder ρ) : EngineCall ρ → EngineBuilder ρ
  | .runner r => { b with runner := some r }
  | .plugin p => { b with plugins := b.plugins ++ [p] }
  | .action n a => { b with actions := b.actions.insert n a }
  | .githubPersonalToken t => { b with githubAuth := some (.personalAccessToken t) }
  | .githubApp i k => { b with githubAuth := some (.githubApp i k) }

/-- crates/astro-run/src/astro_run.rs:7-14 -/
structure Engine (ρ : Type) where
  runner : ρ
  plugins : List Observer
  actions : AMap String Action
  githubAuth : Option GithubAuthorization

/-- crates/astro-run/src/astro_run.rs:93-104; `none` is the panic of `unwrap`. -/
def EngineBuilder.build {ρ : Type} (b : EngineBuilder ρ) : Option (Engine ρ) :=
  b.runner.map fun r => { runner := r, plugins := b.plugins, actions := b.actions, githubAuth := b.githubAuth }

/-- crates/astro-run/src/workflow/builder.rs:4-8 with the engine's drivers (workflow/parser.rs:15-44): what the
parser sees of the engine. -/
def Engine.parseEnv {ρ : Type} (e : Engine ρ) (durations : String → Option Nat) : ParseEnv :=
  { actions := e.actions, plugins := e.plugins, durations }

/-! ## `ExecutionContextBuilder` -/

/-- crates/astro-run/src/execution_context/builder.rs:8-16; `Pl` is the type of payloads.  The signal manager is
always set by `AstroRun::execution_context` and left out. -/
structure ContextBuilder (ρ Pl : Type) where
  runner : Option ρ := none
  plugins : Option (List Observer) := none
  event : Option TriggerEvent := none
  githubAuth : Option GithubAuthorization := none
  payload : Option Pl := none

/-- The methods a user of `AstroRun::execution_context` calls (builder.rs:46-64). -/
inductive ContextCall (Pl : Type)
  | event (e : TriggerEvent)
  | githubAuth (a : GithubAuthorization)
  | payload (p : Pl)

/-- One method call. -/
def ContextBuilder.call {ρ Pl : Type} (b : ContextBuilder ρ Pl) : ContextCall Pl → ContextBuilder ρ Pl
  | .event e => { b with event := some e }
  | .githubAuth a => { b with githubAuth := some a }
  | .payload p => { b with payload := some p }

/-- crates/astro-run/src/astro_run.rs:25-36 (`execution_context`) -/
def Engine.executionContext {ρ Pl : Type} (e : Engine ρ) : ContextBuilder ρ Pl :=
  { runner := some e.runner, plugins := some e.plugins, githubAuth := e.githubAuth }

/-- crates/astro-run/src/execution_context/mod.rs:16-23 -/
structure ExecContext (ρ Pl : Type) where
  runner : ρ
  plugins : List Observer
  matcher : Matcher
  payload : Option Pl

/-- crates/astro-run/src/execution_context/builder.rs:66-97; `none` is a panic. -/
def ContextBuilder.build {ρ Pl : Type} (b : ContextBuilder ρ Pl) : Option (ExecContext ρ Pl) :=
  match b.runner, b.plugins with
  | some r, some ps => some
    { runner := r, plugins := ps, matcher := { githubAuth := b.githubAuth, event := b.event }, payload := b.payload }
  | _, _ => none

/-! ## `AstroRunPlugin` -/

/-- The hooks of `AstroRunPlugin` that are notifications (crates/astro-run/src/plugins/plugin.rs:18-30). -/
inductive HookKind
  | runWorkflow | runJob | runStep | stateChange | log | stepCompleted | jobCompleted | workflowCompleted
  deriving DecidableEq, Repr

/-- Which hook a notification belongs to; the call of `Runner::run` is none of them. -/
def Event.hookKind : Event → Option HookKind
  | .runWorkflow _ => some .runWorkflow
  | .runJob _ => some .runJob
  | .runStep _ => some .runStep
  | .workflowState _ _ | .jobState _ _ | .stepState _ _ => some .stateChange
  | .log _ _ => some .log
  | .stepCompleted _ => some .stepCompleted
  | .jobCompleted _ => some .jobCompleted
  | .workflowCompleted _ => some .workflowCompleted
  | .runnerRun _ => none

/-- crates/astro-run/src/plugins/plugin.rs:18-30, 152-164: the closures given.  A closure may keep state; `past` is
what the plugin was notified of before. -/
structure PluginBuilder where
  notify : AMap HookKind (List Event → Event → Except Error Unit) := []
  resolve : Option (UserActionStep → Except Error (Option Action)) := none
  before : Option (Step → Except Error Step) := none

/-- The methods (plugin.rs:49-134). -/
inductive PluginCall
  | on (k : HookKind) (f : List Event → Event → Except Error Unit)
  | onResolveDynamicAction (f : UserActionStep → Except Error (Option Action))
  | onBeforeRunStep (f : Step → Except Error Step)

/-- One method call. -/
def PluginBuilder.call (b : PluginBuilder) : PluginCall → PluginBuilder
  | .on k f => { b with notify := b.notify.insert k f }
  | .onResolveDynamicAction f => { b with resolve := some f }
  | .onBeforeRunStep f => { b with before := some f }

/-- plugin.rs:136-150 (`build`) and 173-265 (the hooks) -/
def PluginBuilder.build (b : PluginBuilder) : Observer :=
  { onEvent := fun past e =>
      match e.hookKind with
      | some k => match b.notify.get? k with
        | some f => match f past e with
          | .ok () => .ok ()
          | .error err => .error err
        | none => .ok ()
      | none => .ok ()
    onBeforeRunStep := fun s =>
      match b.before with
      | some f => match f s with
        | .ok s' => .ok s'
        | .error err => .error err
      | none => .ok s
    onResolveDynamicAction := fun a =>
      match b.resolve with
      | some f => f a
      | none => .ok none }

/-! ## `AstroRunnerBuilder` -/

/-- crates/runner/src/astro_runner.rs:119-123 -/
structure RunnerBuilder where
  workingDirectory : Option String := none
  plugins : List RunnerPlugin := []

/-- The methods (astro_runner.rs:130-139). -/
inductive RunnerCall
  | plugin (p : RunnerPlugin)
  | workingDirectory (d : String)

/-- One method call. -/
def RunnerBuilder.call (b : RunnerBuilder) : RunnerCall → RunnerBuilder
  | .plugin p => { b with plugins := b.plugins ++ [p] }
  | .workingDirectory d => { b with workingDirectory := some d }

/-- crates/runner/src/astro_runner.rs:141-158 (`build`): the working directory and the plugins of the runner. -/
def RunnerBuilder.build (b : RunnerBuilder) (home : Option String) : Except Error (String × List RunnerPlugin) :=
  match buildRunner b.workingDirectory home with
  | .ok d => .ok (d, b.plugins)
  | .error e => .error e

/-! ## `WorkflowBuilder` -/

/-- crates/astro-run/src/workflow/builder.rs:4-8 -/
structure WorkflowBuilder where
  id : Option Id := none
  config : Option String := none

/-- The methods (builder.rs:15-23). -/
inductive WorkflowCall
  | id (i : Id)
  | config (c : String)

/-- One method call. -/
def WorkflowBuilder.call (b : WorkflowBuilder) : WorkflowCall → WorkflowBuilder
  | .id i => { b with id := some i }
  | .config c => { b with config := some c }

/-- crates/astro-run/src/workflow/builder.rs:25-40 (`build`); `yaml` is `serde_yaml::from_str`, `fresh` the new
uuid. -/
def WorkflowBuilder.build (b : WorkflowBuilder) (env : ParseEnv) (yaml : String → Except String UserWorkflow)
    (fresh : Id) : Except Error Workflow :=
  match b.config with
  | none => .error (.initError "Workflow config is required")
  | some c => match yaml c with
    | .error e => .error (.workflowConfigError ("Failed to parse workflow: " ++ e))
    | .ok w => buildWorkflow env (b.id.getD fresh) w

end AstroRun
