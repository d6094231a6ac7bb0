import Verif.Model.MatcherDialog
import Verif.Spec.MatcherConc

/-! # Specification vocabulary: what GitHub is asked -/

namespace AstroRun.Spec
open AstroRun

/-- Reachable states of the matcher of a run with this event and authorization, with the moves that led there. -/
def GhReach (g : GlobLang) (event : Option TriggerEvent) (auth : Option GithubAuthorization) (acts : List GhAct) (m : GhM) : Prop :=
  runs (GhM.step g) (GhM.new event auth) acts = some m

/-- What GitHub answered to check `i`, in order. -/
def answersTo (i : Nat) (acts : List GhAct) : List GhAnswer :=
  acts.filterMap fun | .answer j x => if j = i then some x else none | _ => none

/-- What check `i` asked GitHub, in order. -/
def askedBy (i : Nat) (m : GhM) : List (GhCred × GhRequest) :=
  m.asked.filterMap fun q => if q.1 = i then some q.2 else none

/-- What a check is to ask for the files of the event `e`, with the token `t`. -/
def filesQuestion (e : TriggerEvent) (t : String) : List (GhCred × GhRequest) :=
  if e.event = "push" then [(.token t, .commit e.repoOwner e.repoName e.sha)]
  else if e.event = "pull_request" then
    match e.prNumber with
    | some n => [(.token t, .pullFiles e.repoOwner e.repoName n)]
    | none => []
  else []

/-- What a check is to ask about the event `e`, given the answers so far: with a personal access token, for the files; with an app, as
the app for the installation at the repository of the event, as the app for a token of that installation, and with that token for
the files. -/
def questions (e : TriggerEvent) : GithubAuthorization → List GhAnswer → List (GhCred × GhRequest)
  | .personalAccessToken t, _ => filesQuestion e t
  | .githubApp n k, xs =>
    if e.event = "push" ∨ e.event = "pull_request" then
      (GhCred.app n k, GhRequest.repoInstallation e.repoOwner e.repoName) ::
        match xs with
        | .installation id :: .token t :: _ => (GhCred.app n k, GhRequest.installationToken id) :: filesQuestion e t
        | .installation id :: _ => [(GhCred.app n k, GhRequest.installationToken id)]
        | _ => []
    else []

/-- The files GitHub has named, if it has. -/
def filesNamed (e : TriggerEvent) (a : GithubAuthorization) (xs : List GhAnswer) : Option (List String) :=
  match a, xs with
  | .personalAccessToken _, [.commit files] => if e.event = "push" then some (files.getD []) else none
  | .personalAccessToken _, [.pulls files] => if e.event = "pull_request" then some files else none
  | .githubApp _ _, [.installation _, .token _, .commit files] => if e.event = "push" then some (files.getD []) else none
  | .githubApp _ _, [.installation _, .token _, .pulls files] => if e.event = "pull_request" then some files else none
  | _, _ => none

/-- The files cannot be found out: GitHub failed to answer, the event is of another kind, or it is a pull request without a number. -/
def Hopeless (e : TriggerEvent) (a : GithubAuthorization) (xs : List GhAnswer) : Prop :=
  xs.getLast? = some .failed ∨ (e.event ≠ "push" ∧ e.event ≠ "pull_request") ∨
    (e.event = "pull_request" ∧ e.prNumber = none ∧
      ((∃ t, a = .personalAccessToken t) ∨ ∃ id t, xs = [.installation id, .token t]))

/-- Answers of the kind the request asks for, and failures. -/
def Fits : GhRequest → GhAnswer → Prop
  | _, .failed => True
  | .repoInstallation _ _, .installation _ => True
  | .installationToken _, .token _ => True
  | .commit _ _ _, .commit _ => True
  | .pullFiles _ _ _, .pulls _ => True
  | _, _ => False

/-- A token check `i` may use: the user's, or, for an app, one that GitHub has issued in answer to this check. -/
def MayUse (a : GithubAuthorization) (acts : List GhAct) (i : Nat) (t : String) : Prop :=
  a = .personalAccessToken t ∨ (∃ n k, a = .githubApp n k) ∧ GhAct.answer i (.token t) ∈ acts

/-- A request check `i` may make: about the repository of the event, the installation there and the commit or pull request of the event,
with the right credentials: the app's own for its installation and its tokens only. -/
def MayAsk (a : GithubAuthorization) (e : TriggerEvent) (acts : List GhAct) (i : Nat) : GhCred × GhRequest → Prop
  | (.app n k, .repoInstallation o r) => a = .githubApp n k ∧ o = e.repoOwner ∧ r = e.repoName
  | (.app n k, .installationToken id) => a = .githubApp n k ∧ GhAct.answer i (.installation id) ∈ acts
  | (.token t, .commit o r s) => MayUse a acts i t ∧ e.event = "push" ∧ o = e.repoOwner ∧ r = e.repoName ∧ s = e.sha
  | (.token t, .pullFiles o r n) => MayUse a acts i t ∧ e.event = "pull_request" ∧ o = e.repoOwner ∧ r = e.repoName ∧ some n = e.prNumber
  | _ => False

/-- Where a check is if lookups are taken as one piece. -/
def stageOf : GhPc → CheckPc
  | .start => .start
  | .installation | .token _ | .files _ => .looking
  | .got p => .got p
  | .done b => .done b

/-- The state of a matcher if lookups are taken as one piece. -/
def lookupsInOnePiece (m : GhM) : MatchM := ⟨m.matcher, m.calls.map fun k => ⟨k.cond, stageOf k.pc⟩⟩

end AstroRun.Spec
