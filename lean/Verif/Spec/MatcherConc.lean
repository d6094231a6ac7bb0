import Verif.Model.MatcherConc

/-! # Vocabulary for concurrent condition checks -/

namespace AstroRun

/-- Reachable states of the matcher of a run with this event and authorization, with the moves that led there. -/
def MatchReach (g : GlobLang) (event : Option TriggerEvent) (auth : Option GithubAuthorization)
    (acts : List MatchAct) (m : MatchM) : Prop :=
  runs (MatchM.step g) (MatchM.new event auth) acts = some m

/-- The lookups made by check `i`, with the behaviour GitHub showed then. -/
def lookupsOf (i : Nat) (acts : List MatchAct) : List GithubApi :=
  acts.filterMap fun | .answer j api => if j = i then some api else none | _ => none

/-- The lookup of changed files for this event and API fails, or is not supported. -/
def LookupFails (auth : GithubAuthorization) (api : GithubApi) (e : TriggerEvent) : Prop :=
  (e.event ≠ "push" ∧ e.event ≠ "pull_request") ∨
  (∃ id key x, auth = .githubApp id key ∧ api.installation e.repoOwner e.repoName = .error x) ∨
  (e.event = "push" ∧ ∃ x, api.commitFiles e.repoOwner e.repoName e.sha = .error x) ∨
  (e.event = "pull_request" ∧ (e.prNumber = none ∨
    ∃ n x, e.prNumber = some n ∧ api.pullFiles e.repoOwner e.repoName n = .error x))

/-- What the lookup returns when it does not fail. -/
def LookupGives (api : GithubApi) (e : TriggerEvent) (files : List String) : Prop :=
  (e.event = "push" ∧ ∃ o, api.commitFiles e.repoOwner e.repoName e.sha = .ok o ∧ files = o.getD []) ∨
  (e.event = "pull_request" ∧ ∃ n, e.prNumber = some n ∧
    api.pullFiles e.repoOwner e.repoName n = .ok files)

/-- Check `i` made a lookup that returned `files`. -/
def LookedUp (a : GithubAuthorization) (e : TriggerEvent) (acts : List MatchAct) (i : Nat) (files : List String) : Prop :=
  ∃ api, lookupsOf i acts = [api] ∧ ¬ LookupFails a api e ∧ LookupGives api e files

end AstroRun
