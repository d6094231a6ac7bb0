import Verif.Model.UserDecode
import Verif.Spec.Wire

/-! # Specification vocabulary: configuration documents -/

namespace AstroRun.Spec
open AstroRun AstroRun.Wire

/-- The value under a key of a mapping is `v`. -/
def Says (o : List (String × Json)) (k : String) (v : Json) : Prop := (k, v) ∈ o
/-- The last entry of a mapping under `k` is `v`. -/
def LastSays {α : Type} (o : List (String × α)) (k : String) (v : α) : Prop :=
  ∃ pre post, o = pre ++ (k, v) :: post ∧ k ∉ post.map Prod.fst
/-- A mapping repeats none of the keys `ks`. -/
def Once (ks : List String) (o : List (String × Json)) : Prop := ∀ k ∈ ks, (o.filter fun e => e.1 = k).length ≤ 1
/-- Two mappings say the same about the keys `ks`. -/
def AgreeOn (ks : List String) (o o' : List (String × Json)) : Prop :=
  ∀ k ∈ ks, o.filter (fun e => e.1 = k) = o'.filter (fun e => e.1 = k)

/-- The documented keys. -/
def workflowKeys : List String := ["name", "on", "jobs"]
def jobKeys : List String := ["name", "container", "working-directories", "steps", "on", "depends-on"]
def stepKeys : List String :=
  ["name", "container", "run", "uses", "with", "on", "continue-on-error", "environments", "secrets", "timeout"]
def commandKeys : List String :=
  ["name", "container", "run", "on", "continue-on-error", "environments", "secrets", "timeout"]
def actionKeys : List String :=
  ["name", "uses", "with", "on", "continue-on-error", "environments", "secrets", "timeout"]
def containerKeys : List String := ["name", "volumes", "security-opts"]
def conditionKeys : List String := ["push", "pull_request"]
def branchKeys : List String := ["branches", "paths"]

/-- Writing a `with` value and reading it again gives it back. -/
structure WithText.Lawful (x : WithText) : Prop where
  back : ∀ s, x.text (x.value s) = s
  nonnull : ∀ s, x.value s ≠ .null

/-- A step whose environment, if any, is a map. -/
def StepWritable : UserStep → Prop
  | .command c => ∀ e, c.environments = some e → IsMap e
  | .action a => ∀ e, a.environments = some e → IsMap e
/-- A configuration a document can hold: one entry per job and per variable. -/
def Writable (w : UserWorkflow) : Prop := IsMap w.jobs ∧ ∀ k j, (k, j) ∈ w.jobs → ∀ s ∈ j.steps, StepWritable s

/-! ## What a document means -/

section
variable {α : Type}

/-- A key that must be there. -/
def Required (o : List (String × Json)) (k : String) (R : Json → α → Prop) (a : α) : Prop := ∃ v, Says o k v ∧ R v a

/-- A key that may be missing or empty. -/
def Optional (o : List (String × Json)) (k : String) (R : Json → α → Prop) : Option α → Prop
  | none => ∀ v, Says o k v → v = .null
  | some a => ∃ v, Says o k v ∧ v ≠ .null ∧ R v a

/-- A sequence of things. -/
def Sequence (R : Json → α → Prop) (v : Json) (as : List α) : Prop :=
  ∃ l, v = .arr l ∧ as.length = l.length ∧ ∀ (i : Nat) j a, l[i]? = some j → as[i]? = some a → R j a

/-- A mapping from names to things: one thing for each name, the last where the text repeats the name. -/
def Mapping (R : Json → α → Prop) (v : Json) (m : List (String × α)) : Prop :=
  ∃ o, v = .obj o ∧ m.map Prod.fst = (o.map Prod.fst).eraseDups ∧ (∀ k j, (k, j) ∈ o → ∃ a, R j a) ∧
    ∀ k j a, LastSays o k j → (k, a) ∈ m → R j a
end

/-- What is written for a thing with the keys `ks` (in the order in which the thing lists them): a mapping that repeats none
of them, or a sequence with one value for each of the keys. -/
def Written (ks : List String) (v : Json) (o : List (String × Json)) : Prop :=
  (v = .obj o ∧ Once ks o) ∨ ∃ l, v = .arr l ∧ l.length = ks.length ∧ o = ks.zip l

def Text (v : Json) (s : String) : Prop := v = .str s
def Texts (v : Json) (l : List String) : Prop := v = .arr (l.map .str)
def Truth (v : Json) (b : Bool) : Prop := v = .bool b

/-- The value of an environment variable: a text, a number (its text is what the step sees) or a truth value. -/
inductive MeansEnv : Json → EnvironmentVariable → Prop
  | text s : MeansEnv (.str s) (.string s)
  | whole n : MeansEnv (.int n) (.number (toString n))
  | decimal t : MeansEnv (.float t) (.number t)
  | truth b : MeansEnv (.bool b) (.boolean b)

/-- A container: its name, or a mapping. -/
def MeansContainer (v : Json) : Container → Prop
  | .name n => Text v n
  | .options c => ∃ o, Written containerKeys v o ∧ Required o "name" Text c.name ∧ Optional o "volumes" Texts c.volumes ∧
      Optional o "security-opts" Texts c.securityOpts

def MeansBranch (v : Json) (b : BranchCondition) : Prop :=
  ∃ o, Written branchKeys v o ∧ Optional o "branches" Texts b.branches ∧ Optional o "paths" Texts b.paths

/-- A condition: names of events, or a mapping. -/
def MeansCondition (v : Json) : Condition → Prop
  | .event ns => Texts v ns
  | .config c => ∃ o, Written conditionKeys v o ∧ Optional o "push" MeansBranch c.push ∧
      Optional o "pull_request" MeansBranch c.pullRequest

def MeansCommand (v : Json) (c : UserCommandStep) : Prop :=
  ∃ o, Written commandKeys v o ∧ Optional o "name" Text c.name ∧ Optional o "container" MeansContainer c.container ∧
    Required o "run" Text c.run ∧ Optional o "on" MeansCondition c.on ∧
    Optional o "continue-on-error" Truth c.continueOnError ∧
    Optional o "environments" (Mapping MeansEnv) c.environments ∧ Optional o "secrets" Texts c.secrets ∧
    Optional o "timeout" Text c.timeout

def MeansAction (x : WithText) (v : Json) (a : UserActionStep) : Prop :=
  ∃ o, Written actionKeys v o ∧ Optional o "name" Text a.name ∧ Required o "uses" Text a.uses ∧
    Optional o "with" (fun w t => t = x.text w) a.withValue ∧ Optional o "on" MeansCondition a.on ∧
    Optional o "continue-on-error" Truth a.continueOnError ∧
    Optional o "environments" (Mapping MeansEnv) a.environments ∧ Optional o "secrets" Texts a.secrets ∧
    Optional o "timeout" Text a.timeout

/-- A step is a command if it can be one. -/
def MeansStep (x : WithText) (v : Json) : UserStep → Prop
  | .command c => MeansCommand v c
  | .action a => MeansAction x v a ∧ ∀ c, ¬ MeansCommand v c

def MeansJob (x : WithText) (v : Json) (b : UserJob) : Prop :=
  ∃ o, Written jobKeys v o ∧ Optional o "name" Text b.name ∧ Optional o "container" MeansContainer b.container ∧
    Optional o "working-directories" Texts b.workingDirs ∧
    Required o "steps" (fun v l => (v = .null ∧ l = []) ∨ Sequence (MeansStep x) v l) b.steps ∧
    Optional o "on" MeansCondition b.on ∧ Optional o "depends-on" Texts b.dependsOn

def MeansWorkflow (x : WithText) (v : Json) (w : UserWorkflow) : Prop :=
  ∃ o, Written workflowKeys v o ∧ Optional o "name" Text w.name ∧ Optional o "on" MeansCondition w.on ∧
    Required o "jobs" (fun v m => (v = .null ∧ m = []) ∨ Mapping (MeansJob x) v m) w.jobs

/-- The keys of a step that a command and an action share hold what they must: a text, a condition, a truth value,
texts and numbers, texts, a text (or nothing). -/
structure SharedKeysOk (o : List (String × Json)) : Prop where
  name : ∀ v, Says o "name" v → v = .null ∨ ∃ s, v = .str s
  on : ∀ v, Says o "on" v → v = .null ∨ ∃ c, MeansCondition v c
  continueOnError : ∀ v, Says o "continue-on-error" v → v = .null ∨ ∃ b, v = .bool b
  environments : ∀ v, Says o "environments" v → v = .null ∨ ∃ e, Mapping MeansEnv v e
  secrets : ∀ v, Says o "secrets" v → v = .null ∨ ∃ l : List String, v = .arr (l.map .str)
  timeout : ∀ v, Says o "timeout" v → v = .null ∨ ∃ s, v = .str s

/-- A container is named by a text or described by a mapping. -/
def ContainerOk (o : List (String × Json)) : Prop :=
  ∀ v, Says o "container" v → v = .null ∨ ∃ c, MeansContainer v c

end AstroRun.Spec
