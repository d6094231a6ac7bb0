import Verif.Model.Condition

/-! # What a condition means -/

namespace AstroRun

/-- Pattern `p` is a valid glob. -/
def ValidGlob (g : GlobLang) (p : String) : Prop := g p ≠ none

/-- Pattern `p` is valid and matches the value `v`. -/
def GlobMatches (g : GlobLang) (p v : String) : Prop := ∃ m, g p = some m ∧ m v = true

/-- Some value is matched by some pattern. -/
def SomeMatch (g : GlobLang) (patterns values : List String) : Prop :=
  ∃ v ∈ values, ∃ p ∈ patterns, GlobMatches g p v

/-- Some pattern before the first invalid one matches the first value. -/
def FirstMatch (g : GlobLang) (patterns values : List String) : Prop :=
  ∃ v vs pre bad post p, values = v :: vs ∧ patterns = pre ++ bad :: post ∧ (∀ q ∈ pre, ValidGlob g q) ∧
    ¬ ValidGlob g bad ∧ p ∈ pre ∧ GlobMatches g p v

/-- What a pattern list accepts, invalid patterns included: if all patterns are valid, any value list of which
some value is matched by some pattern; with an invalid pattern only the first value and the patterns before the
first invalid one count. -/
def ListMatches (g : GlobLang) (patterns values : List String) : Prop :=
  if ∀ p ∈ patterns, g p ≠ none then SomeMatch g patterns values else FirstMatch g patterns values

/-- Meaning of a `push:` / `pull_request:` section, for any globs. -/
def BranchSpec' (g : GlobLang) (c : BranchCondition) (p : ConditionPayload) : Prop :=
  (∀ bs, c.branches = some bs → ListMatches g bs [p.branch]) ∧
  (∀ ps, c.paths = some ps → ListMatches g ps p.paths)

/-- Meaning of a `push:` / `pull_request:` section. -/
def BranchSpec (g : GlobLang) (c : BranchCondition) (p : ConditionPayload) : Prop :=
  (∀ bs, c.branches = some bs → SomeMatch g bs [p.branch]) ∧
  (∀ ps, c.paths = some ps → SomeMatch g ps p.paths)

/-- Meaning of a condition. -/
def ConditionSpec (g : GlobLang) (c : Condition) (p : ConditionPayload) : Prop :=
  match c with
  | .event names => p.event ∈ names
  | .config cfg =>
    (p.event = "push" ∧ ∃ b, cfg.push = some b ∧ BranchSpec g b p) ∨
    (p.event = "pull_request" ∧ ∃ b, cfg.pullRequest = some b ∧ BranchSpec g b p)

/-- All patterns of a condition. -/
def BranchCondition.patterns (c : BranchCondition) : List String :=
  c.branches.getD [] ++ c.paths.getD []

/-- Every pattern mentioned in the condition is a valid glob. -/
def AllGlobsValid (g : GlobLang) : Condition → Prop
  | .event _ => True
  | .config cfg =>
    (∀ b, cfg.push = some b → ∀ p ∈ b.patterns, ValidGlob g p) ∧
    (∀ b, cfg.pullRequest = some b → ∀ p ∈ b.patterns, ValidGlob g p)

end AstroRun
