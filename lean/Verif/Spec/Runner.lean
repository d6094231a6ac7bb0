import Verif.Model.Runner

/-! # Specification vocabulary: the local runner -/

namespace AstroRun.Spec
open AstroRun

/-! ## Words of a shell command -/

/-- Characters without a special meaning for `sh` in the middle of a command. -/
def plainChar (c : Char) : Bool :=
  c.isAlphanum || c ∈ ['_', '-', '.', '/', ':', '=', '@', ',', '+', '%']

/-- Characters that stand for themselves between double quotes. -/
def quotableChar (c : Char) : Bool := !decide (c ∈ ['"', '$', '`', '\\'])

/-- A text the shell takes as one word, unchanged. -/
def PlainWord (s : String) : Prop := s ≠ "" ∧ ∀ c ∈ s.toList, plainChar c = true

/-- A text that stands for itself between double quotes. -/
def Quotable (s : String) : Prop := ∀ c ∈ s.toList, quotableChar c = true

/-- The part of the POSIX shell's word splitting we need: words separated by spaces, with double quotes.
`cur` is the word being read.  Anything else (expansions, pipes, other quotes, comments, ...) gives `none`:
"not understood". -/
def shGo : (cur : Option (List Char)) → (quoted : Bool) → List Char → Option (List (List Char))
  | cur, false, [] => some cur.toList
  | _, true, [] => none
  | cur, false, c :: cs =>
    if c = ' ' then (shGo none false cs).map (cur.toList ++ ·)
    else if c = '"' then shGo (some (cur.getD [])) true cs
    else if plainChar c then shGo (some (cur.getD [] ++ [c])) false cs
    else none
  | cur, true, c :: cs =>
    if c = '"' then shGo cur false cs
    else if quotableChar c then shGo (some (cur.getD [] ++ [c])) true cs
    else none

/-- The program and its arguments that `sh -c line` runs. -/
def shArgv (line : String) : Option (List String) := (shGo none false line.toList).map (·.map String.ofList)

/-! ## What the docker command of a step should be -/

/-- The text of a configured environment value: texts and numbers as they are, booleans as `true` and `false`. -/
def shown : EnvironmentVariable → String
  | .string s => s
  | .number n => n
  | .boolean b => if b then "true" else "false"

/-- The environment of a step as name/text pairs. -/
def printedEnv (c : Command) : List (String × String) := c.environments.map fun e => (e.1, shown e.2)

/-- The volumes of the step's container that have exactly two parts. -/
def twoPartVolumes (c : Command) : List String :=
  ((c.container.bind ContainerOptions.volumes).getD []).filter fun v => v.toList.count ':' == 1

/-- The security options of the step's container. -/
def configuredSecurity (c : Command) : List String := (c.container.bind ContainerOptions.securityOpts).getD []

/-- The image of the step: its container's name, `ubuntu` without a container. -/
def imageOf (c : Command) : String :=
  match c.container with
  | some o => o.name
  | none => "ubuntu"

/-- Host path and container path of every mount, in order. -/
def mountsOf (c : Command) (md : Metadata) : List String :=
  [md.entrypoint ++ ":/home/work/runner/entrypoint", md.jobData ++ ":/home/runner/work",
   md.caches ++ ":/home/work/caches"] ++ twoPartVolumes c

/-- The arguments docker should get for a step; `quote` is applied to what must be protected from the shell. -/
def dockerArgs (quote : String → String) (c : Command) (md : Metadata) (envs : List (String × String)) :
    List String :=
  ["docker", "run", "--tty", "--rm"] ++
  (configuredSecurity c).flatMap (fun o => ["--security-opt", o]) ++
  (mountsOf c md).flatMap (fun v => ["-v", quote v]) ++
  envs.flatMap (fun e => ["-e", e.1 ++ "=" ++ quote e.2]) ++
  ["-w", "/home/runner/work", "--entrypoint", "/home/work/runner/entrypoint", "--name", md.dockerName, imageOf c]

/-- Double quotes around a text. -/
def dquote (s : String) : String := "\"" ++ s ++ "\""

/-! ## Places -/

/-- A name that is one path component. -/
def SimpleName (s : String) : Prop := s ≠ "" ∧ '/' ∉ s.toList ∧ s ≠ "." ∧ s ≠ ".."

/-- `l` is at or below `d`. -/
def Under (d l : Loc) : Prop := ∃ rest, l = d ++ rest

/-- Every entry's parent exists. -/
def TreeShaped (fs : FS) : Prop := ∀ d x, fs (d ++ [x]) ≠ none → fs d ≠ none

/-- The directory of workflow `w`, under the working directory and, if there is an event, the repository. -/
def workflowLoc (cwd : Loc) (wd : String) (ev : Option TriggerEvent) (w : Id) : Loc :=
  resolve cwd (repoDir wd (ev.map fun e => (e.repoOwner, e.repoName))) ++ [w]

/-- The part of the paths that names the repository of the event. -/
def repoPart : Option TriggerEvent → Loc
  | some e => [e.repoOwner, e.repoName]
  | none => []

/-- The paths of a step that belongs to this event. -/
def pathsOf (wd : String) (ev : Option TriggerEvent) (id : StepId) : Metadata :=
  Metadata.build wd (ev.map fun e => (e.repoOwner, e.repoName)) id

/-- The runner's memory after it was asked to run these steps, in this order. -/
def memAfter (h : List (Command × Option TriggerEvent)) : RunnerMem :=
  h.foldl (fun m x => m.noteRun x.1 x.2) {}

end AstroRun.Spec
