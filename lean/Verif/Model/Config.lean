import Verif.Model.Types
import Verif.Model.Map

/-!
# User configuration

crates/astro-run/src/user_config.rs.  The reading of a document is in
`Model/UserDecode.lean`; here the model starts at the decoded `UserWorkflow`.
-/

namespace AstroRun

/-- crates/astro-run/src/user_config.rs:13-18 -/
inductive Container
  | options (o : ContainerOptions)
  | name (n : String)
  deriving DecidableEq, Repr, Inhabited

/-- crates/astro-run/src/user_config.rs:20-31 -/
structure UserCommandStep where
  name : Option String := none
  container : Option Container := none
  run : String := ""
  on : Option Condition := none
  continueOnError : Option Bool := none
  environments : Option EnvironmentVariables := none
  secrets : Option (List String) := none
  timeout : Option String := none
  deriving DecidableEq, Repr, Inhabited

/-- crates/astro-run/src/user_config.rs:33-44.  Simplification: the YAML value `with` is its text. -/
structure UserActionStep where
  name : Option String := none
  uses : String := ""
  withValue : Option String := none
  on : Option Condition := none
  continueOnError : Option Bool := none
  environments : Option EnvironmentVariables := none
  secrets : Option (List String) := none
  timeout : Option String := none
  deriving DecidableEq, Repr, Inhabited

/-- crates/astro-run/src/user_config.rs:46-52 -/
inductive UserStep
  | command (c : UserCommandStep)
  | action (a : UserActionStep)
  deriving DecidableEq, Repr, Inhabited

/-- crates/astro-run/src/user_config.rs:54-65 -/
structure UserJob where
  name : Option String := none
  container : Option Container := none
  workingDirs : Option (List String) := none
  steps : List UserStep := []
  on : Option Condition := none
  dependsOn : Option (List String) := none
  deriving DecidableEq, Repr, Inhabited

/-- crates/astro-run/src/user_config.rs:67-72; `jobs` in some iteration order of the `HashMap`. -/
structure UserWorkflow where
  name : Option String := none
  on : Option Condition := none
  jobs : List (Id × UserJob) := []
  deriving DecidableEq, Repr, Inhabited

/-- crates/astro-run/src/user_config.rs:128-137 -/
def Container.normalize : Container → ContainerOptions
  | .options o => o
  | .name n => { name := n, securityOpts := none, volumes := none }

/-- crates/astro-run/src/user_config.rs:87-94: the first dependency that is not a key of the job map. -/
def firstMissing (all : List (Id × UserJob)) : List String → Option String
  | [] => none
  | d :: ds => if AMap.contains all d then firstMissing all ds else some d

/-- crates/astro-run/src/user_config.rs:82-108: the loop over the jobs, carrying
`is_all_jobs_has_dependencies`. -/
def validateJobs (all : List (Id × UserJob)) : List (Id × UserJob) → Bool → Except Error Bool
  | [], allDep => .ok allDep
  | (k, j) :: rest, allDep =>
    match (match j.dependsOn with
      | some ds =>
        if ds.isEmpty then .ok false
        else match firstMissing all ds with
          | some d => .error (Error.workflowConfigError
              ("Job " ++ k ++ " depends on job " ++ d ++ ", but job " ++ d ++ " is not defined"))
          | none => .ok allDep
      | none => .ok false : Except Error Bool) with
    | .error e => .error e
    | .ok allDep' =>
      if j.steps.isEmpty then
        .error (.workflowConfigError ("Job `" ++ k ++ "` must have at least one step"))
      else validateJobs all rest allDep'

/-- crates/astro-run/src/user_config.rs:75-117 -/
def UserWorkflow.validate (w : UserWorkflow) : Except Error Unit :=
  if w.jobs.isEmpty then .error (.workflowConfigError "Workflow must have at least one job")
  else match validateJobs w.jobs w.jobs true with
    | .error e => .error e
    | .ok true => .error (.workflowConfigError "Cannot have all jobs has dependencies")
    | .ok false => .ok ()

end AstroRun
