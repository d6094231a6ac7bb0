import Verif.Model.Config

/-!
# Observers: plugins and the runner's hooks

crates/astro-run/src/plugins/plugin_driver.rs and crates/astro-run/src/execution_context/mod.rs:206-295.
A hook may keep state of its own, so its answer may depend on everything it was called with before.
-/

namespace AstroRun

/-- crates/astro-run/src/actions.rs:5-10 -/
structure ActionSteps where
  pre : Option UserStep := none
  run : UserStep
  post : Option UserStep := none
  deriving DecidableEq, Repr, Inhabited

/-- crates/astro-run/src/actions.rs:12-14 (`Action::normalize`) -/
abbrev Action := UserActionStep → Except Error ActionSteps

/-- The hooks of one plugin (crates/astro-run/src/plugins/mod.rs, plugin.rs:18-30) or of the runner
(crates/astro-run/src/runner.rs:78-105).  `onEvent past e` is the answer to notification `e` when the
notifications `past` were delivered to it before. -/
structure Observer where
  onEvent : List Event → Event → Except Error Unit := fun _ _ => .ok ()
  onBeforeRunStep : Step → Except Error Step := .ok
  onResolveDynamicAction : UserActionStep → Except Error (Option Action) := fun _ => .ok none

/-- What has happened at the observers: the calls made, as (observer position, notification), in order, and
the errors the engine logged. -/
structure HookWorld where
  calls : List (Nat × Event) := []
  errors : List Error := []
  deriving DecidableEq, Repr

/-- What observer `i` was called with so far. -/
def HookWorld.seenBy (w : HookWorld) (i : Nat) : List Event :=
  (w.calls.filter (fun c => c.1 == i)).map Prod.snd

/-- One hook call: the error of a failing hook is logged and dropped
(plugin_driver.rs:20-26 and the identical loops at 31-103; execution_context/mod.rs:213-215 etc.). -/
def HookWorld.call (w : HookWorld) (i : Nat) (o : Observer) (e : Event) : HookWorld :=
  match o.onEvent (w.seenBy i) e with
  | .ok () => { w with calls := w.calls ++ [(i, e)] }
  | .error err => { calls := w.calls ++ [(i, e)], errors := w.errors ++ [err] }

/-- crates/astro-run/src/plugins/plugin_driver.rs:18-104: `for plugin in &self.plugins { .. }`. -/
def HookWorld.driver (w : HookWorld) (e : Event) : Nat → List Observer → HookWorld
  | _, [] => w
  | i, o :: os => (w.call i o e).driver e (i + 1) os

/-- crates/astro-run/src/execution_context/mod.rs:206-295 (`call_on_*`): the plugins, then the runner.
The runner is the observer at position `plugins.length`. -/
def HookWorld.notify (plugins : List Observer) (runner : Observer) (w : HookWorld) (e : Event) : HookWorld :=
  (w.driver e 0 plugins).call plugins.length runner e

/-- crates/astro-run/src/plugins/plugin_driver.rs:106-122 -/
def driverBeforeRunStep : List Observer → Step → Step
  | [], s => s
  | o :: os, s =>
    match o.onBeforeRunStep s with
    | .ok s' => driverBeforeRunStep os s'
    | .error _ => driverBeforeRunStep os s

/-- crates/astro-run/src/execution_context/mod.rs:268-276 -/
def callBeforeRunStep (plugins : List Observer) (runner : Observer) (s : Step) : Step :=
  let s1 := driverBeforeRunStep plugins s
  match runner.onBeforeRunStep s1 with
  | .ok s2 => s2
  | .error _ => s1

/-- crates/astro-run/src/plugins/plugin_driver.rs:124-140 -/
def driverResolve : List Observer → UserActionStep → Option Action
  | [], _ => none
  | o :: os, a =>
    match o.onResolveDynamicAction a with
    | .ok (some act) => some act
    | .ok none => driverResolve os a
    | .error _ => driverResolve os a

end AstroRun
