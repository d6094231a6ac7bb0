import Verif.Lemmas.Condition

/-!
# Conditions (C30, C31)
-/

namespace AstroRun

/-- A small concrete glob language for the witnesses: `*` matches everything, `[` is invalid, any other text
matches itself. -/
def demoGlob : GlobLang := fun p =>
  if p = "[" then none else if p = "*" then some (fun _ => true) else some (fun v => v == p)

/-- **C30** for every glob language, condition with valid globs and payload, the condition matches iff its
meaning `ConditionSpec` holds. -/
theorem C30_condition_semantics (g : GlobLang) (c : Condition) (p : ConditionPayload)
    (hv : AllGlobsValid g c) : c.isMatch g p = true ↔ ConditionSpec g c p := by
  cases c with
  | event names => simp [Condition.isMatch, ConditionSpec]
  | config cfg =>
    obtain ⟨h1, h2⟩ := hv
    simp only [Condition.isMatch, ConditionSpec]
    by_cases e1 : p.event = "push"
    · have e2 : p.event ≠ "pull_request" := by rw [e1]; decide
      cases hc : cfg.push with
      | none => simp [e1]
      | some b => simp [e1, BranchCondition.isMatch_iff g b p (h1 b hc)]
    · by_cases e2 : p.event = "pull_request"
      · cases hc : cfg.pullRequest with
        | none => simp [e2]
        | some b => simp [e2, BranchCondition.isMatch_iff g b p (h2 b hc)]
      · simp [e1, e2]

example : AllGlobsValid demoGlob (.config ⟨some ⟨some ["main"], some ["src", "*"]⟩, none⟩) ∧
    (Condition.config ⟨some ⟨some ["main"], some ["src", "*"]⟩, none⟩).isMatch demoGlob
      ⟨"push", "main", ["a.rs"]⟩ = true ∧
    (Condition.config ⟨some ⟨some ["main"], some ["src", "*"]⟩, none⟩).isMatch demoGlob
      ⟨"push", "dev", ["a.rs"]⟩ = false := by
  refine ⟨?_, by decide, by decide⟩
  simp [AllGlobsValid, BranchCondition.patterns, ValidGlob, demoGlob]

/-- **C31** for every condition, with valid or invalid globs: what it matches.  In a list with an invalid glob
only the patterns before the first invalid one and the first value count (`ListMatches`). -/
theorem C31_invalid_glob (g : GlobLang) (c : Condition) (p : ConditionPayload) :
    c.isMatch g p = true ↔
      match c with
      | .event names => p.event ∈ names
      | .config cfg =>
        (p.event = "push" ∧ ∃ b, cfg.push = some b ∧ BranchSpec' g b p) ∨
        (p.event = "pull_request" ∧ ∃ b, cfg.pullRequest = some b ∧ BranchSpec' g b p) := by
  cases c with
  | event names => simp [Condition.isMatch]
  | config cfg =>
    simp only [Condition.isMatch]
    by_cases e1 : p.event = "push"
    · have e2 : p.event ≠ "pull_request" := by rw [e1]; decide
      cases hc : cfg.push with
      | none => simp [e1]
      | some b => simp [e1, BranchCondition.isMatch_iff' g b p]
    · by_cases e2 : p.event = "pull_request"
      · cases hc : cfg.pullRequest with
        | none => simp [e2]
        | some b => simp [e2, BranchCondition.isMatch_iff' g b p]
      · simp [e1, e2]

/-- **C31** at the level of a whole condition: a `push` section that gives a path list never matches a push
whose changed-file list is empty. -/
theorem C31_no_changed_files (g : GlobLang) (branches : Option (List String)) (ps : List String)
    (pr : Option BranchCondition) (branch : String) :
    (Condition.config ⟨some ⟨branches, some ps⟩, pr⟩).isMatch g ⟨"push", branch, []⟩ = false := by
  cases branches <;> simp [Condition.isMatch, BranchCondition.isMatch, isMatchPatterns]

/-- An invalid glob: only what comes before it, and only the first changed file, count. -/
example : ¬ ValidGlob demoGlob "[" ∧
    (Condition.config ⟨some ⟨none, some ["x", "[", "*"]⟩, none⟩).isMatch demoGlob ⟨"push", "m", ["x", "y"]⟩ = true ∧
    (Condition.config ⟨some ⟨none, some ["x", "[", "*"]⟩, none⟩).isMatch demoGlob ⟨"push", "m", ["y", "x"]⟩ = false := by
  refine ⟨by simp [ValidGlob, demoGlob], by decide, by decide⟩

end AstroRun
