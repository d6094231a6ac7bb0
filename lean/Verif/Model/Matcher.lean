import Verif.Model.Condition

/-!
# `ConditionMatcher`: when is a condition evaluated, and on what

crates/astro-run/src/execution_context/condition_matcher.rs.  GitHub's HTTP API is a parameter; since the
answers may differ from call to call, every check gets its own `GithubApi`.
-/

namespace AstroRun

/-- crates/astro-run/src/types/mod.rs:23-27 -/
inductive GithubAuthorization
  | personalAccessToken (t : String)
  | githubApp (appId : Nat) (privateKey : String)
  deriving DecidableEq, Repr

/-- Answers of the GitHub endpoints the matcher uses (condition_matcher.rs:90-95, 114-125, 151-175). -/
structure GithubApi where
  /-- `apps.get_repo_installation` then `create_installation_access_token`; only used with a GitHub App -/
  installation : String → String → Except Error Unit
  /-- `repos.get_commit`: the `files` field of the answer -/
  commitFiles : String → String → String → Except Error (Option (List String))
  /-- `pulls.list_files` -/
  pullFiles : String → String → Int → Except Error (List String)

/-- crates/astro-run/src/execution_context/condition_matcher.rs:6-11 -/
structure Matcher where
  githubAuth : Option GithubAuthorization
  event : Option TriggerEvent
  payload : Option ConditionPayload := none
  deriving DecidableEq, Repr

/-- condition_matcher.rs:130-144 (`get_github_api_by_repo`, with 146-180) -/
def githubApiByRepo (auth : GithubAuthorization) (api : GithubApi) (owner repo : String) : Except Error Unit :=
  match auth with
  | .personalAccessToken _ => .ok ()
  | .githubApp _ _ => api.installation owner repo

/-- condition_matcher.rs:81-103 -/
def pushChangedFiles (auth : GithubAuthorization) (api : GithubApi) (e : TriggerEvent) :
    Except Error (List String) :=
  match githubApiByRepo auth api e.repoOwner e.repoName with
  | .error x => .error x
  | .ok () =>
    match api.commitFiles e.repoOwner e.repoName e.sha with
    | .error x => .error x
    | .ok files => .ok (files.getD [])

/-- condition_matcher.rs:105-128 -/
def pullRequestChangedFiles (auth : GithubAuthorization) (api : GithubApi) (e : TriggerEvent) :
    Except Error (List String) :=
  match githubApiByRepo auth api e.repoOwner e.repoName with
  | .error x => .error x
  | .ok () =>
    match e.prNumber with
    | none => .error (.workflowConfigError "pr_number is not provided")
    | some n => api.pullFiles e.repoOwner e.repoName n

/-- condition_matcher.rs:68-79 -/
def changedFiles (auth : GithubAuthorization) (api : GithubApi) (e : TriggerEvent) :
    Except Error (List String) :=
  if e.event = "push" then pushChangedFiles auth api e
  else if e.event = "pull_request" then pullRequestChangedFiles auth api e
  else .error (.unsupportedFeature ("Event " ++ e.event ++ " is not supported"))

/-- condition_matcher.rs:22-66 (`is_match` and `condition_payload`), without interference from concurrent
checks.  Result: the matcher afterwards, the answer, and whether a lookup of changed files was made. -/
def Matcher.isMatch (g : GlobLang) (m : Matcher) (api : GithubApi) (c : Condition) : Matcher × Bool × Bool :=
  match m.githubAuth, m.event with
  | none, _ => (m, true, false)
  | some _, none => (m, true, false)
  | some auth, some e =>
    match m.payload with
    | some p => (m, c.isMatch g p, false)
    | none =>
      match changedFiles auth api e with
      | .ok files =>
        let p : ConditionPayload := ⟨e.event, e.branch, files⟩
        ({ m with payload := some p }, c.isMatch g p, true)
      | .error _ => (m, true, true)

/-- A sequence of checks, each with the API behaviour at that time; answers and "made a lookup" flags. -/
def Matcher.checks (g : GlobLang) (m : Matcher) : List (GithubApi × Condition) → List (Bool × Bool)
  | [] => []
  | (api, c) :: rest =>
    let (m', b, l) := m.isMatch g api c
    (b, l) :: m'.checks g rest

/-- condition_matcher.rs:13-20 -/
def Matcher.new (event : Option TriggerEvent) (auth : Option GithubAuthorization) : Matcher :=
  { githubAuth := auth, event := event }

end AstroRun
