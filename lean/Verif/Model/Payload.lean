import Verif.Model.JsonText

/-!
# The user's payload

A payload is a value of a user type that implements `ContextPayloadExt`.  `#[typetag::serde]` gives every such type a
name and registers it in the program; a payload is written as an object with that name as its only key, and read back
by looking the name up.  `Clone` goes through the JSON text.  A panic of `expect` is `none`.  Assumed: `as_any` of a
user type returns the value itself, as its documentation shows.
-/

namespace AstroRun.Wire

/-- A user type that implements `ContextPayloadExt`: its name, its values, `Serialize` (which may fail) and
`Deserialize`. -/
structure PayloadType where
  name : String
  Val : Type
  ser : Val → Option Json
  de : Json → Option Val

/-- The user types of a program, and those that are registered (typetag). -/
structure Program where
  Ty : Type
  decEq : DecidableEq Ty
  info : Ty → PayloadType
  registered : List Ty

instance (g : Program) : DecidableEq g.Ty := g.decEq

/-- crates/astro-run/src/execution_context/context_payload.rs:9-10 -/
structure Payload (g : Program) where
  ty : g.Ty
  val : (g.info ty).Val

/-- typetag: the type with this name.  A name that two types have is ambiguous and not found. -/
def Program.lookup (g : Program) (name : String) : Option g.Ty :=
  match g.registered.filter fun t => (g.info t).name == name with
  | [t] => some t
  | _ => none

/-- `Serialize` of a boxed payload, and of `ContextPayload`, which is a newtype of it. -/
def Payload.toJson {g : Program} (p : Payload g) : Option Json :=
  ((g.info p.ty).ser p.val).map fun j => .obj [((g.info p.ty).name, j)]

/-- `Deserialize` of a boxed payload. -/
def Payload.ofJson (g : Program) : Json → Option (Payload g)
  | .obj [(name, j)] => (g.lookup name).bind fun t => ((g.info t).de j).map (Payload.mk t)
  | _ => none

/-- crates/astro-run/src/execution_context/context_payload.rs:20-25 and mod.rs:301-306 (`payload::<P>()`). -/
def Payload.get {g : Program} (p : Payload g) (t : g.Ty) : Option (g.info t).Val :=
  if h : p.ty = t then some (h ▸ p.val) else none

/-- crates/astro-run/src/execution_context/context_payload.rs:35-44 (`clone`) -/
def Payload.clone {g : Program} (f : FloatText) (p : Payload g) : Option (Payload g) := do
  let j ← p.toJson
  let j ← parseJson f (printJson f j)
  Payload.ofJson g j

/-- `Option<ContextPayload>::clone` -/
def cloneOpt {g : Program} (f : FloatText) : Option (Payload g) → Option (Option (Payload g))
  | none => some none
  | some p => (p.clone f).map some

/-- crates/astro-run/src/execution_context/mod.rs:308-313 (`payload_string`) -/
def payloadString {g : Program} (f : FloatText) : Option (Payload g) → Option (Option String)
  | none => some none
  | some p => p.toJson.map fun j => some (String.ofList (printJson f j))

/-- One clone for each of `n` receivers. -/
def cloneEach {g : Program} (f : FloatText) (p : Option (Payload g)) : Nat → Option (List (Option (Payload g)))
  | 0 => some []
  | n + 1 => do
    let a ← cloneOpt f p
    let rest ← cloneEach f p n
    return a :: rest

/-- What the plugins and the runner get of the context's payload. -/
structure Delivered (g : Program) where
  plugins : List (Option (Payload g))
  runner : Option (Payload g)

/-- crates/astro-run/src/execution_context/mod.rs:206-216 with plugin_driver.rs:38-48 (`call_on_run_workflow`), and
mod.rs:218-233 with plugin_driver.rs:50-56 (`call_on_run_job`): the payload of the event, for `n` plugins. -/
def notifyRun {g : Program} (f : FloatText) (n : Nat) (ctx : Option (Payload g)) : Option (Delivered g) := do
  let event ← cloneOpt f ctx
  let forDriver ← cloneOpt f event
  let plugins ← cloneEach f forDriver n
  return ⟨plugins, event⟩

/-- crates/astro-run/src/execution_context/mod.rs:33-39, 252-258 with plugin_driver.rs:58-68 (`call_on_run_step`), and
mod.rs:58-67: what the runner gets with the step. -/
def notifyStep {g : Program} (f : FloatText) (n : Nat) (ctx : Option (Payload g)) :
    Option (Delivered g × Option String) := do
  let event ← cloneOpt f ctx
  let event ← cloneOpt f event
  let forDriver ← cloneOpt f event
  let plugins ← cloneEach f forDriver n
  let text ← payloadString f ctx
  return (⟨plugins, event⟩, text)

/-- crates/astro-run/src/workflow/mod.rs:86, 120: the context a job runs with is a clone (`#[derive(Clone)]`,
mod.rs:15-22). -/
def jobContext {g : Program} (f : FloatText) (ctx : Option (Payload g)) : Option (Option (Payload g)) := cloneOpt f ctx

end AstroRun.Wire
