import Verif.Model.Matcher
import Verif.Model.Run

/-!
# `ConditionMatcher` under concurrent checks

All tasks of a workflow run check their conditions with the same matcher: `ExecutionContext` is cloned for every job task
(crates/astro-run/src/workflow/mod.rs:153-161), and a clone shares the cell that holds the payload
(crates/astro-run/src/execution_context/condition_matcher.rs:6-11).  A check is interrupted by others while it waits for GitHub
(38); its two critical sections (34-36 and 40-41) are separate moves.  Simplification: the requests of one lookup are one
move, with an API of its own.
-/

namespace AstroRun

/-- Where a call of `is_match` is. -/
inductive CheckPc
  /-- not polled yet -/
  | start
  /-- waiting for the lookup of changed files (condition_matcher.rs:38) -/
  | looking
  /-- the lookup has returned `p`, which is not stored yet (39) -/
  | got (p : ConditionPayload)
  /-- returned -/
  | done (b : Bool)
  deriving DecidableEq, Repr

/-- A call of `is_match`. -/
structure Check where
  cond : Condition
  pc : CheckPc := .start
  deriving DecidableEq, Repr

/-- The matcher and all calls so far, in the order they were made. -/
structure MatchM where
  matcher : Matcher
  calls : List Check := []
  deriving DecidableEq, Repr

/-- Moves. -/
inductive MatchAct
  /-- some task calls `is_match` -/
  | call (c : Condition)
  /-- call `i`: look at authorization, event and payload -/
  | read (i : Nat)
  /-- GitHub, behaving like `api`, answers the lookup of call `i` -/
  | answer (i : Nat) (api : GithubApi)
  /-- call `i`: store the payload and evaluate the condition -/
  | store (i : Nat)

/-- Call `i` goes on at `pc`. -/
def MatchM.goto (m : MatchM) (i : Nat) (pc : CheckPc) : MatchM :=
  { m with calls := m.calls.modify i fun k => { k with pc := pc } }

/-- One move. -/
def MatchM.step (g : GlobLang) (m : MatchM) : MatchAct → Option MatchM
  | .call c => some { m with calls := m.calls ++ [{ cond := c }] }
  -- condition_matcher.rs:23-36
  | .read i => match m.calls[i]? with
    | some ⟨c, .start⟩ =>
      match m.matcher.githubAuth, m.matcher.event with
      | some _, some _ =>
        match m.matcher.payload with
        | some p => some (m.goto i (.done (c.isMatch g p)))
        | none => some (m.goto i .looking)
      | _, _ => some (m.goto i (.done true))
    | _ => none
  -- condition_matcher.rs:38, 45-49 and 53-66
  | .answer i api => match m.calls[i]? with
    | some ⟨_, .looking⟩ =>
      match m.matcher.githubAuth, m.matcher.event with
      | some auth, some e =>
        match changedFiles auth api e with
        | .ok files => some (m.goto i (.got ⟨e.event, e.branch, files⟩))
        | .error _ => some (m.goto i (.done true))
      | _, _ => none  -- unreachable: `looking` is entered with both
    | _ => none
  -- condition_matcher.rs:39-44
  | .store i => match m.calls[i]? with
    | some ⟨c, .got p⟩ =>
      some ({ m with matcher := { m.matcher with payload := some p } }.goto i (.done (c.isMatch g p)))
    | _ => none

/-- A fresh matcher, condition_matcher.rs:13-20. -/
def MatchM.new (event : Option TriggerEvent) (auth : Option GithubAuthorization) : MatchM :=
  { matcher := Matcher.new event auth }

end AstroRun
