import Verif.Model.Plugin

/-!
# From the user configuration to a runnable workflow

crates/astro-run/src/workflow/parser.rs and crates/astro-run/src/actions.rs.
`humantime::parse_duration` is a parameter (`durations`).
-/

namespace AstroRun

/-- What the parser looks things up in: the registered actions (actions.rs:18-21), the plugins, and
`humantime::parse_duration`. -/
structure ParseEnv where
  actions : AMap String Action := []
  plugins : List Observer := []
  durations : String → Option Nat

/-- crates/astro-run/src/actions.rs:30-38 -/
def actionTryNormalize (actions : AMap String Action) (a : UserActionStep) :
    Except Error (Option ActionSteps) :=
  match AMap.get? actions a.uses with
  | some act => match act a with
    | .ok s => .ok (some s)
    | .error e => .error e
  | none => .ok none

/-- crates/astro-run/src/workflow/parser.rs:15-44 -/
def tryNormalizeAction (env : ParseEnv) (a : UserActionStep) : Except Error ActionSteps :=
  match actionTryNormalize env.actions a with
  | .error e => .error e
  | .ok (some s) => .ok s
  | .ok none =>
    match driverResolve env.plugins a with
    | some act => act a
    | none => .error (.workflowConfigError ("Action `" ++ a.uses ++ "` is not found"))

/-- `if let Some(x) = .. { v.push(x) }` -/
def pushOpt (l : List UserStep) : Option UserStep → List UserStep
  | some x => l ++ [x]
  | none => l

/-- `if let Some(x) = .. { v.insert(0, x) }` -/
def insertFront (l : List UserStep) : Option UserStep → List UserStep
  | some x => x :: l
  | none => l

/-- crates/astro-run/src/workflow/parser.rs:46-85, with the three accumulators. -/
def normalizeLoop (env : ParseEnv) : List UserStep → List UserStep → List UserStep → List UserStep →
    Except Error (List UserStep)
  | [], pre, mid, post => .ok (pre ++ mid ++ post)
  | .action a :: rest, pre, mid, post =>
    match tryNormalizeAction env a with
    | .error e => .error e
    | .ok s => normalizeLoop env rest (pushOpt pre s.pre) (mid ++ [s.run]) (insertFront post s.post)
  | .command c :: rest, pre, mid, post => normalizeLoop env rest pre (mid ++ [.command c]) post

/-- crates/astro-run/src/workflow/parser.rs:46-85 -/
def tryNormalizeUserSteps (env : ParseEnv) (us : List UserStep) : Except Error (List UserStep) :=
  normalizeLoop env us [] [] []

/-- crates/astro-run/src/workflow/parser.rs:104-138: the loop over the expanded steps of job `key`. -/
def parseSteps (env : ParseEnv) (id key : Id) (jobContainer : Option Container) :
    Nat → List UserStep → Except Error (List Step)
  | _, [] => .ok []
  | _, .action _ :: _ => .error (.unsupportedFeature "Only command step is supported")
  | idx, .command c :: rest =>
    match env.durations (c.timeout.getD "60m") with
    | none => .error (.workflowConfigError
        "Invalid timeout format. The format should like `60m` or `1h`.")
    | some t =>
      match parseSteps env id key jobContainer (idx + 1) rest with
      | .error e => .error e
      | .ok steps => .ok ({
          id := ⟨id, key, idx⟩
          name := c.name
          container := (c.container.or jobContainer).map Container.normalize
          run := c.run
          continueOnError := c.continueOnError.getD false
          environments := c.environments.getD []
          secrets := c.secrets.getD []
          timeout := t
          on := c.on } :: steps)

/-- crates/astro-run/src/workflow/parser.rs:96-150: one iteration of the job loop. -/
def parseJob (env : ParseEnv) (id key : Id) (j : UserJob) : Except Error Job :=
  match tryNormalizeUserSteps env j.steps with
  | .error e => .error e
  | .ok us =>
    match parseSteps env id key j.container 0 us with
    | .error e => .error e
    | .ok steps => .ok {
        id := ⟨id, key⟩, name := j.name, on := j.on, steps := steps,
        dependsOn := j.dependsOn.getD [], workingDirectories := j.workingDirs.getD [] }

/-- crates/astro-run/src/workflow/parser.rs:93-151: the job loop. -/
def parseJobs (env : ParseEnv) (id : Id) : List (Id × UserJob) → AMap Id Job → Except Error (AMap Id Job)
  | [], acc => .ok acc
  | (k, j) :: rest, acc =>
    match parseJob env id k j with
    | .error e => .error e
    | .ok job => parseJobs env id rest (acc.insert k job)

/-- crates/astro-run/src/workflow/parser.rs:87-159 -/
def parseWorkflow (env : ParseEnv) (id : Id) (w : UserWorkflow) : Except Error Workflow :=
  match parseJobs env id w.jobs [] with
  | .error e => .error e
  | .ok jobs => .ok { id := ⟨id⟩, name := w.name, on := w.on, jobs := jobs }

/-- crates/astro-run/src/workflow/builder.rs:25-40 (`WorkflowBuilder::build`) after YAML decoding, which
`UserWorkflow::try_from` (user_config.rs:140-158) follows with `validate`.  The id is either given or a fresh
uuid; here it is a parameter. -/
def buildWorkflow (env : ParseEnv) (id : Id) (w : UserWorkflow) : Except Error Workflow :=
  match w.validate with
  | .error e => .error e
  | .ok () => parseWorkflow env id w

end AstroRun
