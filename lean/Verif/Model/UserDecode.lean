import Verif.Model.Wire
import Verif.Model.Parser

/-!
# Reading a configuration document

crates/astro-run/src/user_config.rs:5-72 and 140-151: the mapping between a YAML value and a `UserWorkflow` that the
serde attributes in /repo define.  A YAML value is a `Json` value (null, booleans, numbers, texts, sequences, mappings
with text keys).  As the derived `Deserialize` does, a struct is read from a mapping or from a sequence with one value per
field (`fieldsOf`).  The value `null` under `steps` or `jobs` stands for a key without a value (test_empty_steps,
test_empty_jobs); an explicit `null` or `~` there is rejected by serde_yaml, which the model does not tell apart.
Not modelled: the text of a YAML document (serde_yaml itself), anchors and tags, keys that are no text, the check of
the value of `with` (a mapping in it may not repeat a key), and serde_yaml's reading of an unquoted number or boolean as a text where a text is expected.
-/

namespace AstroRun.Wire

/-- The value `with` of an action is any YAML value (user_config.rs:38); the model of `UserActionStep` keeps its text. -/
structure WithText where
  text : Json → String
  value : String → Json

/-- crates/astro-run/src/user_config.rs:13-18 (`untagged`: the first variant that fits). -/
def decUserContainer (j : Json) : Option Container :=
  match decContainer j with
  | some o => some (.options o)
  | none => (decStr j).map .name
/-- crates/astro-run/src/user_config.rs:13-18 (`Serialize`) -/
def encUserContainer : Container → Json
  | .options o => encContainer o
  | .name n => .str n

/-- crates/astro-run/src/types/envs.rs:4-10 (`Serialize`, `untagged`); unlike JSON, YAML can write every `f64`. -/
def encYamlEnv : EnvironmentVariable → Json
  | .string s => .str s
  | .number n => .float n
  | .boolean b => .bool b

/-- crates/astro-run/src/user_config.rs:20-31 -/
def decUserCommand (v : Json) : Option UserCommandStep := do
  let o ← fieldsOf ["name", "container", "run", "on", "continue-on-error", "environments", "secrets", "timeout"] v
  let name ← decOpt decStr (fld o "name")
  let container ← decOpt decUserContainer (fld o "container")
  let run ← (fld o "run").bind decStr
  let on ← decOpt decCondition (fld o "on")
  let continueOnError ← decOpt decBool (fld o "continue-on-error")
  let environments ← decOpt (decMap decEnv) (fld o "environments")
  let secrets ← decOpt (decList decStr) (fld o "secrets")
  let timeout ← decOpt decStr (fld o "timeout")
  return { name, container, run, on, continueOnError, environments, secrets, timeout }
/-- crates/astro-run/src/user_config.rs:20-31 (`Serialize`) -/
def encUserCommand (s : UserCommandStep) : Json :=
  .obj [("name", encOpt .str s.name), ("container", encOpt encUserContainer s.container), ("run", .str s.run),
    ("on", encOpt encCondition s.on), ("continue-on-error", encOpt .bool s.continueOnError),
    ("environments", encOpt (encMap encYamlEnv) s.environments), ("secrets", encOpt (encList .str) s.secrets),
    ("timeout", encOpt .str s.timeout)]

variable (x : WithText)

/-- crates/astro-run/src/user_config.rs:33-44 -/
def decUserAction (v : Json) : Option UserActionStep := do
  let o ← fieldsOf ["name", "uses", "with", "on", "continue-on-error", "environments", "secrets", "timeout"] v
  let name ← decOpt decStr (fld o "name")
  let uses ← (fld o "uses").bind decStr
  let withValue ← decOpt (fun j => some (x.text j)) (fld o "with")
  let on ← decOpt decCondition (fld o "on")
  let continueOnError ← decOpt decBool (fld o "continue-on-error")
  let environments ← decOpt (decMap decEnv) (fld o "environments")
  let secrets ← decOpt (decList decStr) (fld o "secrets")
  let timeout ← decOpt decStr (fld o "timeout")
  return { name, uses, withValue, on, continueOnError, environments, secrets, timeout }
/-- crates/astro-run/src/user_config.rs:33-44 (`Serialize`) -/
def encUserAction (s : UserActionStep) : Json :=
  .obj [("name", encOpt .str s.name), ("uses", .str s.uses), ("with", encOpt x.value s.withValue),
    ("on", encOpt encCondition s.on), ("continue-on-error", encOpt .bool s.continueOnError),
    ("environments", encOpt (encMap encYamlEnv) s.environments), ("secrets", encOpt (encList .str) s.secrets),
    ("timeout", encOpt .str s.timeout)]

/-- crates/astro-run/src/user_config.rs:46-52 (`untagged`: the first variant that fits). -/
def decUserStep (j : Json) : Option UserStep :=
  match decUserCommand j with
  | some c => some (.command c)
  | none => (decUserAction x j).map .action
/-- crates/astro-run/src/user_config.rs:46-52 (`Serialize`) -/
def encUserStep : UserStep → Json
  | .command c => encUserCommand c
  | .action a => encUserAction x a

/-- A `Vec<T>` read by serde_yaml itself: an empty value is an empty sequence (user_config.rs test_empty_steps). -/
def decVec {α : Type} (dec : Json → Option α) : Json → Option (List α)
  | .null => some []
  | j => decList dec j
/-- A `HashMap` read by serde_yaml itself: an empty value is an empty mapping (user_config.rs test_empty_jobs). -/
def decHashMap {α : Type} (dec : Json → Option α) : Json → Option (List (String × α))
  | .null => some []
  | j => decMap dec j

/-- crates/astro-run/src/user_config.rs:54-65 -/
def decUserJob (v : Json) : Option UserJob := do
  let o ← fieldsOf ["name", "container", "working-directories", "steps", "on", "depends-on"] v
  let name ← decOpt decStr (fld o "name")
  let container ← decOpt decUserContainer (fld o "container")
  let workingDirs ← decOpt (decList decStr) (fld o "working-directories")
  let steps ← (fld o "steps").bind (decVec (decUserStep x))
  let on ← decOpt decCondition (fld o "on")
  let dependsOn ← decOpt (decList decStr) (fld o "depends-on")
  return { name, container, workingDirs, steps, on, dependsOn }
/-- crates/astro-run/src/user_config.rs:54-65 (`Serialize`) -/
def encUserJob (b : UserJob) : Json :=
  .obj [("name", encOpt .str b.name), ("container", encOpt encUserContainer b.container),
    ("working-directories", encOpt (encList .str) b.workingDirs), ("steps", encList (encUserStep x) b.steps),
    ("on", encOpt encCondition b.on), ("depends-on", encOpt (encList .str) b.dependsOn)]

/-- crates/astro-run/src/user_config.rs:67-72 -/
def decUserWorkflow (v : Json) : Option UserWorkflow := do
  let o ← fieldsOf ["name", "on", "jobs"] v
  let name ← decOpt decStr (fld o "name")
  let on ← decOpt decCondition (fld o "on")
  let jobs ← (fld o "jobs").bind (decHashMap (decUserJob x))
  return { name, on, jobs }
/-- crates/astro-run/src/user_config.rs:67-72 (`Serialize`) -/
def encUserWorkflow (w : UserWorkflow) : Json :=
  .obj [("name", encOpt .str w.name), ("on", encOpt encCondition w.on), ("jobs", encMap (encUserJob x) w.jobs)]

/-- crates/astro-run/src/user_config.rs:140-151 (`try_from`) on the value of the document; `reason` is serde_yaml's
message. -/
def tryFromDocument (reason : String) (j : Json) : Except Error UserWorkflow :=
  match decUserWorkflow x j with
  | none => .error (.workflowConfigError ("Failed to parse workflow: " ++ reason))
  | some w => match w.validate with
    | .error e => .error e
    | .ok _ => .ok w

end AstroRun.Wire
