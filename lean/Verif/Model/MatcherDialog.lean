import Verif.Model.MatcherConc

/-!
# What `ConditionMatcher` asks GitHub, request by request

crates/astro-run/src/execution_context/condition_matcher.rs.  The lookups of `Model/MatcherConc` (one move there) in single requests
and answers; the checks of a run interleave between any two of them.  GitHub, and the HTTP client `octocrate`, are the environment: any
request may be answered with anything of its kind, or fail.  The texts of the errors are left out: they go to the log only (45-48).
-/

namespace AstroRun

/-- What a request is authenticated with: a GitHub App's id and private key (condition_matcher.rs:191-201), or a token: a personal
access token (184-190) or that of an installation (177-179). -/
inductive GhCred
  | app (appId : Nat) (privateKey : String)
  | token (t : String)
  deriving DecidableEq, Repr

/-- The requests of the matcher. -/
inductive GhRequest
  /-- `apps.get_repo_installation`, condition_matcher.rs:153-163 -/
  | repoInstallation (owner repo : String)
  /-- `apps.create_installation_access_token`, condition_matcher.rs:165-175 -/
  | installationToken (installation : Nat)
  /-- `repos.get_commit`, condition_matcher.rs:90-95 -/
  | commit (owner repo sha : String)
  /-- `pulls.list_files`, condition_matcher.rs:114-125 -/
  | pullFiles (owner repo : String) (number : Int)
  deriving DecidableEq, Repr

/-- GitHub's answers. -/
inductive GhAnswer
  /-- the request failed -/
  | failed
  | installation (id : Nat)
  | token (t : String)
  /-- the `files` field of a commit -/
  | commit (files : Option (List String))
  | pulls (files : List String)
  deriving DecidableEq, Repr

/-- Where a call of `is_match` is. -/
inductive GhPc
  | start
  /-- waiting for the repository's installation (condition_matcher.rs:156) -/
  | installation
  /-- waiting for a token for installation `id` (168) -/
  | token (id : Nat)
  /-- waiting for the files, authenticated with `t` (93, 121) -/
  | files (t : String)
  | got (p : ConditionPayload)
  | done (b : Bool)
  deriving DecidableEq, Repr

/-- A call of `is_match`. -/
structure GhCall where
  cond : Condition
  pc : GhPc := .start
  deriving DecidableEq, Repr

/-- The matcher, all calls so far, and all requests so far, with the calls that made them. -/
structure GhM where
  matcher : Matcher
  calls : List GhCall := []
  asked : List (Nat × GhCred × GhRequest) := []
  deriving DecidableEq, Repr

/-- Moves. -/
inductive GhAct
  /-- some task calls `is_match` -/
  | call (c : Condition)
  /-- call `i`: look at authorization, event and payload, and send the first request -/
  | read (i : Nat)
  /-- GitHub answers the request call `i` waits for -/
  | answer (i : Nat) (x : GhAnswer)
  /-- call `i`: store the payload and evaluate the condition -/
  | store (i : Nat)
  deriving DecidableEq, Repr

/-- Call `i` goes on at `pc`. -/
def GhM.goto (m : GhM) (i : Nat) (pc : GhPc) : GhM :=
  { m with calls := m.calls.modify i fun k => { k with pc := pc } }

/-- Call `i` sends a request and waits at `pc` for the answer. -/
def GhM.ask (m : GhM) (i : Nat) (c : GhCred) (q : GhRequest) (pc : GhPc) : GhM :=
  { m with asked := m.asked ++ [(i, c, q)] }.goto i pc

/-- Call `i` has got an API with token `t` and asks for the files: condition_matcher.rs:88-95 and 112-121.  Without a number of the pull
request the lookup fails before anything is sent (119). -/
def GhM.askFiles (m : GhM) (e : TriggerEvent) (i : Nat) (t : String) : GhM :=
  if e.event = "push" then m.ask i (.token t) (.commit e.repoOwner e.repoName e.sha) (.files t)
  else match e.prNumber with
    | none => m.goto i (.done true)
    | some n => m.ask i (.token t) (.pullFiles e.repoOwner e.repoName n) (.files t)

/-- Call `i` begins its lookup: condition_matcher.rs:68-79, and 130-144 with 146-156, 182-202. -/
def GhM.begin (m : GhM) (a : GithubAuthorization) (e : TriggerEvent) (i : Nat) : GhM :=
  if e.event = "push" ∨ e.event = "pull_request" then
    match a with
    | .personalAccessToken t => m.askFiles e i t
    | .githubApp n k => m.ask i (.app n k) (.repoInstallation e.repoOwner e.repoName) .installation
  else m.goto i (.done true)

/-- One move. -/
def GhM.step (g : GlobLang) (m : GhM) : GhAct → Option GhM
  | .call c => some { m with calls := m.calls ++ [{ cond := c }] }
  -- condition_matcher.rs:23-38
  | .read i => match m.calls[i]? with
    | some ⟨c, .start⟩ =>
      match m.matcher.githubAuth, m.matcher.event with
      | some a, some e =>
        match m.matcher.payload with
        | some p => some (m.goto i (.done (c.isMatch g p)))
        | none => some (m.begin a e i)
      | _, _ => some (m.goto i (.done true))
    | _ => none
  | .answer i x => match m.calls[i]?, m.matcher.githubAuth, m.matcher.event with
    -- condition_matcher.rs:151-175
    | some ⟨_, .installation⟩, some (.githubApp n k), some _ =>
      match x with
      | .failed => some (m.goto i (.done true))
      | .installation id => some (m.ask i (.app n k) (.installationToken id) (.token id))
      | _ => none
    -- condition_matcher.rs:165-179
    | some ⟨_, .token _⟩, some _, some e =>
      match x with
      | .failed => some (m.goto i (.done true))
      | .token t => some (m.askFiles e i t)
      | _ => none
    -- condition_matcher.rs:90-102, 114-127, 53-66
    | some ⟨_, .files _⟩, some _, some e =>
      match x with
      | .failed => some (m.goto i (.done true))
      | .commit files => if e.event = "push" then some (m.goto i (.got ⟨e.event, e.branch, files.getD []⟩)) else none
      | .pulls files => if e.event = "push" then none else some (m.goto i (.got ⟨e.event, e.branch, files⟩))
      | _ => none
    | _, _, _ => none
  -- condition_matcher.rs:39-44
  | .store i => match m.calls[i]? with
    | some ⟨c, .got p⟩ =>
      some ({ m with matcher := { m.matcher with payload := some p } }.goto i (.done (c.isMatch g p)))
    | _ => none

/-- A fresh matcher, condition_matcher.rs:13-20. -/
def GhM.new (event : Option TriggerEvent) (auth : Option GithubAuthorization) : GhM :=
  { matcher := Matcher.new event auth }

end AstroRun
