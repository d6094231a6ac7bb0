import Verif.Model.Id
import Verif.Model.Map

/-!
# The local runner: paths, executor choice, command lines, clean-up

crates/runner/src.  Paths are texts with the joining rule of unix; paths that are not UTF-8 are not modelled
(they make `into_command` fail, which `LocalRun` covers as `prepErr`).  Log output is left out.
-/

namespace AstroRun

/-! ## Paths -/

/-- `PathBuf::join` of the standard library on unix: an absolute argument replaces the path; otherwise a `/` is
put between, unless the path is empty or already ends in one. -/
def pathJoin (a b : String) : String :=
  if b.toList.head? = some '/' then b
  else if a.toList.getLast?.any (fun c => c ≠ '/') then a ++ "/" ++ b
  else a ++ b

/-- crates/runner/src/metadata.rs:17-31 -/
structure Metadata where
  stepDir : String
  jobData : String
  caches : String
  entrypoint : String
  dockerName : String
  dockerWorkdir : String
  deriving DecidableEq, Repr

/-- crates/runner/src/metadata.rs:69-78 and astro_runner.rs:103-107: the directory of the repository. -/
def repoDir (wd : String) (repo : Option (String × String)) : String :=
  match repo with
  | some (owner, name) => pathJoin (pathJoin wd owner) name
  | none => wd

/-- crates/runner/src/metadata.rs:69-108 (`build`); `wd` and `id` are always set (docker.rs:28-36, host.rs:18-26). -/
def Metadata.build (wd : String) (repo : Option (String × String)) (id : StepId) : Metadata :=
  let base := repoDir wd repo
  let jobDir := pathJoin (pathJoin base id.workflow) id.job
  let stepDir := pathJoin jobDir id.number.repr
  { stepDir := stepDir
    jobData := pathJoin jobDir "data"
    caches := pathJoin base "caches"
    entrypoint := pathJoin stepDir "entrypoint"
    dockerName := id.workflow ++ "-" ++ id.job ++ "-" ++ id.number.repr
    dockerWorkdir := "/home/runner/work" }

/-! ## Docker command lines -/

/-- crates/runner/src/docker.rs:4-14 -/
structure Docker where
  image : String
  name : Option String := none
  environments : AMap String String := []
  workingDir : Option String := none
  entrypoint : Option String := none
  volumes : List String := []
  autoRemove : Bool := true
  securityOpts : List String := []
  deriving DecidableEq, Repr

/-- crates/runner/src/docker.rs:60-65 -/
def Docker.volume (d : Docker) (src dst : String) : Docker :=
  { d with volumes := d.volumes ++ ["\"" ++ src ++ ":" ++ dst ++ "\""] }

/-- crates/runner/src/docker.rs:40-43 -/
def Docker.environment (d : Docker) (k v : String) : Docker :=
  { d with environments := d.environments.insert k v }

/-- crates/runner/src/docker.rs:55-58 -/
def Docker.securityOpt (d : Docker) (o : String) : Docker :=
  { d with securityOpts := d.securityOpts ++ [o] }

/-- crates/runner/src/docker.rs:67-107: the words, before they are joined.  `envs` are the entries of
`self.environments` in the order in which the `HashMap` is iterated (a permutation of them). -/
def Docker.words (d : Docker) (envs : List (String × String)) : List String :=
  let w := ["docker", "run", "--tty"]
  let w := if d.autoRemove then w ++ ["--rm"] else w
  let w := d.securityOpts.foldl (fun w o => w ++ ["--security-opt", o]) w
  let w := d.volumes.foldl (fun w v => w ++ ["-v", v]) w
  let w := envs.foldl (fun w e => w ++ ["-e", e.1 ++ "=\"" ++ e.2 ++ "\""]) w
  let w := match d.workingDir with
    | some x => w ++ ["-w", x]
    | none => w
  let w := match d.entrypoint with
    | some x => w ++ ["--entrypoint", x]
    | none => w
  let w := match d.name with
    | some x => w ++ ["--name", x]
    | none => w
  w ++ [d.image]

/-- crates/runner/src/docker.rs:109: `docker_command.join(" ")` -/
def Docker.line (d : Docker) (envs : List (String × String)) : String := " ".intercalate (d.words envs)

/-- `str::split(sep).collect()`: the pieces between separators; at least one. -/
def splitChar (sep : Char) : List Char → List (List Char)
  | [] => [[]]
  | c :: cs =>
    if c = sep then [] :: splitChar sep cs
    else match splitChar sep cs with
      | [] => [[c]]
      | p :: ps => (c :: p) :: ps

/-- crates/runner/src/executors/docker.rs:110-116: a configured volume is used only if it has two parts. -/
def Docker.addVolume (d : Docker) (v : String) : Docker :=
  match splitChar ':' v.toList with
  | [a, b] => d.volume (String.ofList a) (String.ofList b)
  | _ => d

/-- crates/runner/src/executors/docker.rs:82-126 (`into_command`).  `c.environments` in the iteration order of
that `HashMap`. -/
def Docker.ofStep (c : Command) (md : Metadata) : Docker :=
  let image := (c.container.map ContainerOptions.name).getD "ubuntu"
  let d : Docker := { image := image, name := some md.dockerName, workingDir := some md.dockerWorkdir,
                      entrypoint := some "/home/work/runner/entrypoint", autoRemove := true }
  let d := d.volume md.entrypoint "/home/work/runner/entrypoint"
  let d := d.volume md.jobData md.dockerWorkdir
  let d := d.volume md.caches "/home/work/caches"
  let d := c.environments.foldl (fun d e => d.environment e.1 e.2.toStr) d
  let d := match c.container.bind ContainerOptions.volumes with
    | some vs => vs.foldl Docker.addVolume d
    | none => d
  match c.container.bind ContainerOptions.securityOpts with
  | some os => os.foldl Docker.securityOpt d
  | none => d

/-- crates/runner/src/command.rs:13-18 -/
structure ShellCommand where
  command : String
  currentDir : Option String := none
  envs : List (String × String) := []
  deriving DecidableEq, Repr

/-- crates/runner/src/executors/host.rs:66-78 (`into_command`) -/
def hostCommand (c : Command) (md : Metadata) : ShellCommand :=
  { command := c.run
    currentDir := some md.jobData
    envs := c.environments.foldl (fun es e => es ++ [(e.1, e.2.toStr)]) [] }

/-- crates/runner/src/executors/docker.rs:126 and docker.rs:112-118 -/
def dockerCommand (c : Command) (md : Metadata) (envs : List (String × String)) : ShellCommand :=
  { command := (Docker.ofStep c md).line envs }

/-- Which `Executor` (crates/runner/src/executors/mod.rs). -/
inductive ExecKind
  | host | docker
  deriving DecidableEq, Repr

/-- crates/runner/src/astro_runner.rs:74-98 (`create_executor`) on a machine with this OS and architecture. -/
def createExecutor (os arch : String) (c : Command) : ExecKind :=
  match c.container with
  | some o =>
    if o.name = "host/" ++ os ++ "-" ++ arch ∨ o.name = "host/" ++ os then .host else .docker
  | none => .docker

/-- The process started for a step: astro_runner.rs:44 with docker.rs:39 or host.rs:29. -/
def stepProcess (os arch wd : String) (c : Command) (ev : Option TriggerEvent) (envs : List (String × String)) :
    ShellCommand :=
  let md := Metadata.build wd (ev.map fun e => (e.repoOwner, e.repoName)) c.id
  match createExecutor os arch c with
  | .host => hostCommand c md
  | .docker => dockerCommand c md envs

/-! ## The runner's memory and the file system -/

/-- A place in the file system: the names from the root. -/
abbrev Loc := List String

/-- What is at a place. -/
inductive Node
  | dir
  | file (content : String)
  deriving DecidableEq, Repr

/-- The file system, without links. -/
abbrev FS := Loc → Option Node

/-- One name of a path: nothing for an empty name or `.`, one up for `..`. -/
def walk (at_ : Loc) (name : String) : Loc :=
  if name = "" ∨ name = "." then at_
  else if name = ".." then at_.dropLast
  else at_ ++ [name]

/-- The place a path text denotes, for a process with working directory `cwd` (POSIX path resolution in a file
system without links). -/
def resolve (cwd : Loc) (p : String) : Loc :=
  ((splitSlash p.toList).map String.ofList).foldl walk (if p.toList.head? = some '/' then [] else cwd)

/-- `fs::remove_dir_all`: removes the directory and everything in it.  If it fails half-way, the things for which
`survives` holds are left. -/
def removeDirAll (fs : FS) (dir : Loc) (survives : Loc → Bool) : FS :=
  fun l => if dir <+: l ∧ survives l = false then none else fs l

/-- crates/runner/src/astro_runner.rs:12-14 -/
structure RunnerMem where
  workflowEvents : AMap WorkflowId TriggerEvent := []
  deriving DecidableEq, Repr

/-- crates/runner/src/astro_runner.rs:46-53: `run` remembers the event. -/
def RunnerMem.noteRun (m : RunnerMem) (c : Command) (ev : Option TriggerEvent) : RunnerMem :=
  match ev with
  | some e => { m with workflowEvents := m.workflowEvents.insert c.id.workflowId e }
  | none => m

/-- crates/runner/src/astro_runner.rs:100-109: the directory that is removed. -/
def RunnerMem.workflowDir (m : RunnerMem) (wd : String) (id : WorkflowId) : String :=
  let ev := m.workflowEvents.get? id
  pathJoin (repoDir wd (ev.map fun e => (e.repoOwner, e.repoName))) id.id

/-- crates/runner/src/astro_runner.rs:31-37, 100-116 (`on_workflow_completed`): always `Ok`; an error of the
removal is only logged. -/
def RunnerMem.onWorkflowCompleted (m : RunnerMem) (wd : String) (cwd : Loc) (fs : FS) (id : WorkflowId)
    (survives : Loc → Bool) : FS :=
  let dir := resolve cwd (m.workflowDir wd id)
  if (fs dir).isSome then removeDirAll fs dir survives else fs

/-- crates/runner/src/astro_runner.rs:141-158 (`build`); `home` is `env::home_dir()`. -/
def buildRunner (workingDirectory home : Option String) : Except Error String :=
  match workingDirectory with
  | some d => .ok d
  | none => match home with
    | some h => .ok (pathJoin h "astro-run")
    | none => .error (.initError "AstroRunnerBuilder: working_directory is required")

/-! ## Plugins of the local runner -/

/-- crates/astro-run/src/types/context.rs:17-25: what the runner gets.  The signal is shared, see `LocalRun`; the
payload is not used by this runner. -/
structure RunnerContext where
  command : Command
  event : Option TriggerEvent := none
  deriving DecidableEq, Repr

/-- crates/runner/src/plugin.rs:5-13.  `past` are the contexts the plugin was asked about before (it may keep
state of its own). -/
structure RunnerPlugin where
  before : (past : List RunnerContext) → RunnerContext → Except Error RunnerContext := fun _ c => .ok c
  after : (past : List RunnerContext) → RunnerContext → Except Error Unit := fun _ _ => .ok ()

/-- crates/runner/src/plugin.rs:26-41 (`on_before_run`): the context afterwards and the calls made, as
(plugin position, context it was given).  `past i` is what plugin `i` was asked about in earlier runs. -/
def pluginsBefore (past : Nat → List RunnerContext) :
    Nat → List RunnerPlugin → RunnerContext → RunnerContext × List (Nat × RunnerContext)
  | _, [], c => (c, [])
  | i, p :: ps, c =>
    let next := match p.before (past i) c with
      | .ok c' => c'
      | .error _ => c
    let (out, calls) := pluginsBefore past (i + 1) ps next
    (out, (i, c) :: calls)

/-- crates/runner/src/plugin.rs:43-49 (`on_after_run`): the calls made and the errors logged. -/
def pluginsAfter (past : Nat → List RunnerContext) (c : RunnerContext) :
    Nat → List RunnerPlugin → List (Nat × RunnerContext) × List Error
  | _, [] => ([], [])
  | i, p :: ps =>
    let (calls, errs) := pluginsAfter past c (i + 1) ps
    match p.after (past i) c with
    | .ok () => ((i, c) :: calls, errs)
    | .error e => ((i, c) :: calls, e :: errs)

/-- What `run` decides before it spawns the task. -/
structure RunPlan where
  ctx : RunnerContext
  kind : ExecKind
  dirs : Metadata
  process : ShellCommand
  deriving DecidableEq, Repr

/-- crates/runner/src/astro_runner.rs:39-55 and the first lines of the executors (docker.rs:28-39,
host.rs:18-29).  `envs` is the order in which the environment is iterated. -/
def startRun (os arch wd : String) (plugins : List RunnerPlugin) (past : Nat → List RunnerContext)
    (m : RunnerMem) (ctx : RunnerContext) (envs : List (String × String)) : RunnerMem × RunPlan :=
  let ctx' := (pluginsBefore past 0 plugins ctx).1
  (m.noteRun ctx'.command ctx'.event,
   { ctx := ctx'
     kind := createExecutor os arch ctx'.command
     dirs := Metadata.build wd (ctx'.event.map fun e => (e.repoOwner, e.repoName)) ctx'.command.id
     process := stepProcess os arch wd ctx'.command ctx'.event envs })

end AstroRun
