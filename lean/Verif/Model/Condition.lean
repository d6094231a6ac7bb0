import Verif.Model.Types

/-!
# Conditions (`on:`)

crates/astro-run/src/types/condition.rs.  The third-party `glob` crate is a parameter: a `GlobLang` maps a
pattern text to `none` when `glob::Pattern::new` rejects it, and otherwise to `Pattern::matches`.
-/

namespace AstroRun

/-- The language of glob patterns (crate `glob`). -/
abbrev GlobLang := String → Option (String → Bool)

/-- crates/astro-run/src/types/condition.rs:3-8 -/
structure ConditionPayload where
  event : String
  branch : String
  paths : List String
  deriving DecidableEq, Repr, Inhabited

/-- The inner loop of `is_match_patterns`, condition.rs:104-116, for one value.
`some b`: the function returns `b`; `none`: the loop ends and the next value is tried. -/
def scanPatterns (g : GlobLang) (value : String) : List String → Option Bool
  | [] => none
  | p :: ps =>
    match g p with
    | some m => if m value then some true else scanPatterns g value ps
    | none => some false

/-- crates/astro-run/src/types/condition.rs:102-120 -/
def isMatchPatterns (g : GlobLang) (patterns : List String) : List String → Bool
  | [] => false
  | v :: vs =>
    match scanPatterns g v patterns with
    | some b => b
    | none => isMatchPatterns g patterns vs

/-- crates/astro-run/src/types/condition.rs:40-56 (push) and 58-74 (pull request; identical body). -/
def BranchCondition.isMatch (g : GlobLang) (c : BranchCondition) (p : ConditionPayload) : Bool :=
  let branchesOk := match c.branches with
    | some bs => isMatchPatterns g bs [p.branch]
    | none => true
  if !branchesOk then false
  else
    match c.paths with
    | some ps => isMatchPatterns g ps p.paths
    | none => true

/-- crates/astro-run/src/types/condition.rs:76-100 -/
def Condition.isMatch (g : GlobLang) (c : Condition) (p : ConditionPayload) : Bool :=
  match c with
  | .event names => names.contains p.event
  | .config cfg =>
    if p.event = "push" then
      match cfg.push with
      | some b => b.isMatch g p
      | none => false
    else if p.event = "pull_request" then
      match cfg.pullRequest with
      | some b => b.isMatch g p
      | none => false
    else false

end AstroRun
