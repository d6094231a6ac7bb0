import Verif.Model.Matcher
import Verif.Spec.MatcherConc

/-!
# When conditions apply (C32, C33)
-/

namespace AstroRun

theorem changedFiles_cases (auth : GithubAuthorization) (api : GithubApi) (e : TriggerEvent) :
    (LookupFails auth api e ∧ ∃ x, changedFiles auth api e = .error x) ∨
    (¬ LookupFails auth api e ∧ ∃ files, LookupGives api e files ∧ changedFiles auth api e = .ok files) := by
  by_cases h1 : e.event = "push"
  · have h2 : e.event ≠ "pull_request" := by rw [h1]; decide
    cases auth with
    | personalAccessToken t =>
      cases hc : api.commitFiles e.repoOwner e.repoName e.sha with
      | error x => left; exact ⟨by simp [LookupFails, h1, hc], x, by
          simp [changedFiles, h1, pushChangedFiles, githubApiByRepo, hc]⟩
      | ok o => right; exact ⟨by simp [LookupFails, h1, hc], o.getD [], by
          simp [LookupGives, h1, hc], by
          simp [changedFiles, h1, pushChangedFiles, githubApiByRepo, hc]⟩
    | githubApp i k =>
      cases hi : api.installation e.repoOwner e.repoName with
      | error x => left; exact ⟨by simp [LookupFails, h1, hi], x, by
          simp [changedFiles, h1, pushChangedFiles, githubApiByRepo, hi]⟩
      | ok u =>
        cases hc : api.commitFiles e.repoOwner e.repoName e.sha with
        | error x => left; exact ⟨by simp [LookupFails, h1, hc], x, by
            simp [changedFiles, h1, pushChangedFiles, githubApiByRepo, hi, hc]⟩
        | ok o => right; exact ⟨by simp [LookupFails, h1, hi, hc], o.getD [], by
            simp [LookupGives, h1, hc], by
            simp [changedFiles, h1, pushChangedFiles, githubApiByRepo, hi, hc]⟩
  · by_cases h2 : e.event = "pull_request"
    · cases auth with
      | personalAccessToken t =>
        cases hn : e.prNumber with
        | none => left; exact ⟨by simp [LookupFails, h2, hn], _, by
            simp [changedFiles, h2, pullRequestChangedFiles, githubApiByRepo, hn]; rfl⟩
        | some n =>
          cases hc : api.pullFiles e.repoOwner e.repoName n with
          | error x => left; exact ⟨by simp [LookupFails, h2, hn, hc], x, by
              simp [changedFiles, h2, pullRequestChangedFiles, githubApiByRepo, hn, hc]⟩
          | ok fs => right; exact ⟨by simp [LookupFails, h2, hn, hc], fs, by
              simp [LookupGives, h2, hn, hc], by
              simp [changedFiles, h2, pullRequestChangedFiles, githubApiByRepo, hn, hc]⟩
      | githubApp i k =>
        cases hi : api.installation e.repoOwner e.repoName with
        | error x => left; exact ⟨by simp [LookupFails, h2, hi], x, by
            simp [changedFiles, h2, pullRequestChangedFiles, githubApiByRepo, hi]⟩
        | ok u =>
          cases hn : e.prNumber with
          | none => left; exact ⟨by simp [LookupFails, h2, hn], _, by
              simp [changedFiles, h2, pullRequestChangedFiles, githubApiByRepo, hi, hn]; rfl⟩
          | some n =>
            cases hc : api.pullFiles e.repoOwner e.repoName n with
            | error x => left; exact ⟨by simp [LookupFails, h2, hn, hc], x, by
                simp [changedFiles, h2, pullRequestChangedFiles, githubApiByRepo, hi, hn, hc]⟩
            | ok fs => right; exact ⟨by simp [LookupFails, h2, hi, hn, hc], fs, by
                simp [LookupGives, h2, hn, hc], by
                simp [changedFiles, h2, pullRequestChangedFiles, githubApiByRepo, hi, hn, hc]⟩
    · left
      exact ⟨Or.inl ⟨h1, h2⟩, _, by simp [changedFiles, h1, h2]; rfl⟩

/-- **C32** fail-open.  A check on a fresh matcher answers `true` for *every* condition if there is no GitHub
authorization, no trigger event, or the lookup of changed files fails (which includes every event other than
push / pull_request and a pull request without number); and such a check does not change the matcher. -/
theorem C32_fail_open (g : GlobLang) (event : Option TriggerEvent) (auth : Option GithubAuthorization)
    (api : GithubApi) (c : Condition)
    (h : auth = none ∨ event = none ∨ ∃ a e, auth = some a ∧ event = some e ∧ LookupFails a api e) :
    ((Matcher.new event auth).isMatch g api c).2.1 = true ∧
    ((Matcher.new event auth).isMatch g api c).1 = Matcher.new event auth := by
  rcases h with rfl | rfl | ⟨a, e, rfl, rfl, hf⟩
  · simp [Matcher.new, Matcher.isMatch]
  · cases auth <;> simp [Matcher.new, Matcher.isMatch]
  · rcases changedFiles_cases a api e with ⟨_, x, hx⟩ | ⟨hn, _⟩
    · simp [Matcher.new, Matcher.isMatch, hx]
    · exact absurd hf hn

/-- **C32** (converse) otherwise the answer is exactly the condition evaluated on the event, the branch and
the files the lookup returned. -/
theorem C32_otherwise_evaluated (g : GlobLang) (a : GithubAuthorization) (e : TriggerEvent)
    (api : GithubApi) (c : Condition) (h : ¬ LookupFails a api e) :
    ∃ files, LookupGives api e files ∧
      ((Matcher.new (some e) (some a)).isMatch g api c).2.1 = c.isMatch g ⟨e.event, e.branch, files⟩ := by
  rcases changedFiles_cases a api e with ⟨hf, _⟩ | ⟨_, files, hg, hx⟩
  · exact absurd hf h
  · exact ⟨files, hg, by simp [Matcher.new, Matcher.isMatch, hx]⟩

/-- An API whose calls all fail, and one that answers with two files. -/
def apiDown : GithubApi :=
  ⟨fun _ _ => .error (.error "x"), fun _ _ _ => .error (.error "x"), fun _ _ _ => .error (.error "x")⟩
/-- see `apiDown` -/
def apiUp : GithubApi :=
  ⟨fun _ _ => .ok (), fun _ _ _ => .ok (some ["a.rs", "b.md"]), fun _ _ _ => .ok ["a.rs"]⟩
/-- a push event -/
def demoPush : TriggerEvent := ⟨"push", "o", "r", none, "sha", "main", "refs/heads/main"⟩

example : LookupFails (.personalAccessToken "t") apiDown demoPush :=
  Or.inr (Or.inr (Or.inl ⟨rfl, _, rfl⟩))
example : LookupFails (.personalAccessToken "t") apiUp { demoPush with event := "release" } :=
  Or.inl (by decide)
example : ¬ LookupFails (.personalAccessToken "t") apiUp demoPush := by
  simp [LookupFails, demoPush, apiUp]

theorem Matcher.checks_cached (g : GlobLang) (a : GithubAuthorization) (e : TriggerEvent)
    (p : ConditionPayload) (cs : List (GithubApi × Condition)) :
    Matcher.checks g ⟨some a, some e, some p⟩ cs = cs.map fun x => (x.2.isMatch g p, false) := by
  induction cs with
  | nil => rfl
  | cons x cs ih => obtain ⟨api, c⟩ := x; simp [Matcher.checks, Matcher.isMatch, ih]

/-- **C33** remembered payload.  Take any sequence of checks on a matcher with authorization and event.  Let
`pre` be the checks before the first one whose lookup succeeds.  Then every check of `pre` answers `true`
after making a lookup; the next check makes the last lookup ever, obtaining `files`; and from then on every
answer, whatever GitHub would say by then, is the condition evaluated on those same `files`, with no further
lookup. -/
theorem C33_lookup_until_success (g : GlobLang) (a : GithubAuthorization) (e : TriggerEvent)
    (pre post : List (GithubApi × Condition)) (api : GithubApi) (c : Condition)
    (hpre : ∀ x ∈ pre, LookupFails a x.1 e) (hok : ¬ LookupFails a api e) :
    ∃ files, LookupGives api e files ∧
      (Matcher.new (some e) (some a)).checks g (pre ++ (api, c) :: post) =
        pre.map (fun _ => (true, true)) ++
        (c.isMatch g ⟨e.event, e.branch, files⟩, true) ::
        post.map (fun x => (x.2.isMatch g ⟨e.event, e.branch, files⟩, false)) := by
  rcases changedFiles_cases a api e with ⟨hf, _⟩ | ⟨_, files, hg, hx⟩
  · exact absurd hf hok
  · refine ⟨files, hg, ?_⟩
    induction pre with
    | nil =>
      simp only [List.nil_append, Matcher.checks, Matcher.new, Matcher.isMatch, hx, List.map_nil]
      rw [Matcher.checks_cached]
    | cons y ys ih =>
      obtain ⟨api', c'⟩ := y
      have hy := hpre (api', c') (by simp)
      rcases changedFiles_cases a api' e with ⟨_, x, hx'⟩ | ⟨hn, _⟩
      · have := ih (fun z hz => hpre z (by simp [hz]))
        simp only [List.cons_append, Matcher.checks, Matcher.new, Matcher.isMatch, hx', List.map_cons] at this ⊢
        rw [this]
      · exact absurd hy hn

example : (Matcher.new (some demoPush) (some (.personalAccessToken "t"))).checks (fun p => some (· == p))
    [(apiDown, .event ["x"]), (apiUp, .event ["x"]), (apiDown, .config ⟨some ⟨none, some ["b.md"]⟩, none⟩)]
    = [(true, true), (false, true), (true, false)] := by decide

/-- **C33** with authorization and event, while no lookup succeeds: every check makes a lookup and answers `true`. -/
theorem C33_no_success (g : GlobLang) (a : GithubAuthorization) (e : TriggerEvent) (cs : List (GithubApi × Condition))
    (h : ∀ x ∈ cs, LookupFails a x.1 e) :
    (Matcher.new (some e) (some a)).checks g cs = cs.map fun _ => (true, true) := by
  induction cs with
  | nil => rfl
  | cons y ys ih =>
    obtain ⟨api', c'⟩ := y
    have hy := h (api', c') (by simp)
    rcases changedFiles_cases a api' e with ⟨_, x, hx'⟩ | ⟨hn, _⟩
    · have := ih (fun z hz => h z (by simp [hz]))
      simp only [Matcher.checks, Matcher.new, Matcher.isMatch, hx', List.map_cons] at this ⊢
      rw [this]
    · exact absurd hy hn

/-- **C33** without authorization or without an event nobody is asked for the changed files, however often conditions
are checked; all answers are `true`. -/
theorem C33_no_context (g : GlobLang) (event : Option TriggerEvent) (auth : Option GithubAuthorization)
    (h : auth = none ∨ event = none) (cs : List (GithubApi × Condition)) :
    (Matcher.new event auth).checks g cs = cs.map fun _ => (true, false) := by
  induction cs with
  | nil => rfl
  | cons y ys ih =>
    obtain ⟨api', c'⟩ := y
    rcases h with rfl | rfl
    · simp only [Matcher.checks, Matcher.new, Matcher.isMatch, List.map_cons] at ih ⊢
      rw [ih]
    · cases auth <;> simp only [Matcher.checks, Matcher.new, Matcher.isMatch, List.map_cons] at ih ⊢ <;> rw [ih]

/-- A matcher without authorization, and one whose lookups all fail. -/
example : (Matcher.new (some demoPush) none).checks (fun p => some (· == p)) [(apiUp, .event ["x"]), (apiUp, .event [])]
    = [(true, false), (true, false)] ∧
    (Matcher.new (some demoPush) (some (.personalAccessToken "t"))).checks (fun p => some (· == p))
      [(apiDown, .event ["x"]), (apiDown, .event [])] = [(true, true), (true, true)] := by decide

end AstroRun
