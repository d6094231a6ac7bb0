import Verif.Spec.Condition

/-! # Helper lemmas for conditions -/

namespace AstroRun

theorem scanPatterns_valid (g : GlobLang) (v : String) (ps : List String)
    (hv : ∀ p ∈ ps, ValidGlob g p) :
    ((∃ p ∈ ps, GlobMatches g p v) → scanPatterns g v ps = some true) ∧
    ((¬ ∃ p ∈ ps, GlobMatches g p v) → scanPatterns g v ps = none) := by
  induction ps with
  | nil => simp [scanPatterns]
  | cons p ps ih =>
    obtain ⟨ih1, ih2⟩ := ih (fun q hq => hv q (by simp [hq]))
    cases hg : g p with
    | none => exact absurd hg (hv p (by simp))
    | some m =>
      cases hm : m v with
      | true =>
        refine ⟨fun _ => by simp [scanPatterns, hg, hm], fun h => absurd ⟨p, by simp, m, hg, hm⟩ h⟩
      | false =>
        have hp : ¬ GlobMatches g p v := by
          rintro ⟨m', h1, h2⟩
          rw [hg] at h1; cases h1; simp [hm] at h2
        simp only [List.mem_cons, exists_eq_or_imp, hp, false_or]
        simpa [scanPatterns, hg, hm] using And.intro ih1 ih2

theorem isMatchPatterns_valid (g : GlobLang) (ps values : List String)
    (hv : ∀ p ∈ ps, ValidGlob g p) :
    isMatchPatterns g ps values = true ↔ SomeMatch g ps values := by
  induction values with
  | nil => simp [isMatchPatterns, SomeMatch]
  | cons v vs ih =>
    obtain ⟨h1, h2⟩ := scanPatterns_valid g v ps hv
    by_cases h : ∃ p ∈ ps, GlobMatches g p v
    · simp only [isMatchPatterns, h1 h, true_iff]
      exact ⟨v, by simp, h⟩
    · simp only [isMatchPatterns, h2 h, ih, SomeMatch, List.mem_cons, exists_eq_or_imp, h, false_or]

theorem BranchCondition.isMatch_iff (g : GlobLang) (c : BranchCondition) (p : ConditionPayload)
    (hv : ∀ q ∈ c.patterns, ValidGlob g q) :
    c.isMatch g p = true ↔ BranchSpec g c p := by
  have hb : ∀ bs, c.branches = some bs → ∀ q ∈ bs, ValidGlob g q := by
    intro bs h q hq; exact hv q (by simp [BranchCondition.patterns, h, hq])
  have hp : ∀ ps, c.paths = some ps → ∀ q ∈ ps, ValidGlob g q := by
    intro ps h q hq; exact hv q (by simp [BranchCondition.patterns, h, hq])
  unfold BranchCondition.isMatch BranchSpec
  cases h1 : c.branches with
  | none =>
    cases h2 : c.paths with
    | none => simp
    | some ps => simp [isMatchPatterns_valid g ps _ (hp ps h2)]
  | some bs =>
    have e1 := isMatchPatterns_valid g bs [p.branch] (hb bs h1)
    cases h2 : c.paths with
    | none =>
      by_cases hm : isMatchPatterns g bs [p.branch] = true <;> simp [hm] at e1 ⊢ <;> simp [e1]
    | some ps =>
      have e2 := isMatchPatterns_valid g ps p.paths (hp ps h2)
      by_cases hm : isMatchPatterns g bs [p.branch] = true <;> simp [hm] at e1 ⊢ <;> simp [e1, e2]

/-- The inner loop on a list whose first invalid pattern is `bad`, after valid ones `pre`. -/
theorem scanPatterns_invalid (g : GlobLang) (v : String) (pre post : List String) (bad : String)
    (hpre : ∀ p ∈ pre, ValidGlob g p) (hbad : ¬ ValidGlob g bad) :
    ((∃ p ∈ pre, GlobMatches g p v) → scanPatterns g v (pre ++ bad :: post) = some true) ∧
    ((¬ ∃ p ∈ pre, GlobMatches g p v) → scanPatterns g v (pre ++ bad :: post) = some false) := by
  induction pre with
  | nil =>
    have : g bad = none := by
      cases h : g bad with
      | none => rfl
      | some m => exact absurd (by simp [ValidGlob, h]) hbad
    simp [scanPatterns, this]
  | cons p ps ih =>
    obtain ⟨ih1, ih2⟩ := ih (fun q hq => hpre q (by simp [hq]))
    cases hg : g p with
    | none => exact absurd hg (hpre p (by simp))
    | some m =>
      cases hm : m v with
      | true =>
        refine ⟨fun _ => by simp [scanPatterns, hg, hm], fun h => absurd ⟨p, by simp, m, hg, hm⟩ h⟩
      | false =>
        have hp : ¬ GlobMatches g p v := by
          rintro ⟨m', h1, h2⟩
          rw [hg] at h1; cases h1; simp [hm] at h2
        simp only [List.mem_cons, exists_eq_or_imp, hp, false_or]
        simpa [scanPatterns, hg, hm] using And.intro ih1 ih2

/-- A list with an invalid pattern splits at the first one. -/
theorem first_invalid (g : GlobLang) (ps : List String) (h : ¬ ∀ p ∈ ps, g p ≠ none) :
    ∃ pre bad post, ps = pre ++ bad :: post ∧ (∀ q ∈ pre, ValidGlob g q) ∧ ¬ ValidGlob g bad := by
  induction ps with
  | nil => simp at h
  | cons p ps ih =>
    by_cases hp : g p = none
    · exact ⟨[], p, ps, rfl, by simp, fun h => h hp⟩
    · have : ¬ ∀ q ∈ ps, g q ≠ none := by
        intro h'
        apply h
        intro q hq
        rcases List.mem_cons.1 hq with rfl | hq
        · exact hp
        · exact h' q hq
      obtain ⟨pre, bad, post, rfl, h1, h2⟩ := ih this
      refine ⟨p :: pre, bad, post, rfl, ?_, h2⟩
      intro q hq
      rcases List.mem_cons.1 hq with rfl | hq
      · exact hp
      · exact h1 q hq

theorem isMatchPatterns_iff (g : GlobLang) (ps values : List String) :
    isMatchPatterns g ps values = true ↔ ListMatches g ps values := by
  unfold ListMatches
  split
  · rename_i hv; exact isMatchPatterns_valid g ps values hv
  · rename_i hv
    constructor
    · intro h
      obtain ⟨pre, bad, post, rfl, h1, h2⟩ := first_invalid g ps hv
      cases values with
      | nil => simp [isMatchPatterns] at h
      | cons v vs =>
        obtain ⟨a, b⟩ := scanPatterns_invalid g v pre post bad h1 h2
        by_cases hm : ∃ p ∈ pre, GlobMatches g p v
        · obtain ⟨p, hp, hm⟩ := hm
          exact ⟨v, vs, pre, bad, post, p, rfl, rfl, h1, h2, hp, hm⟩
        · simp [isMatchPatterns, b hm] at h
    · rintro ⟨v, vs, pre, bad, post, p, rfl, rfl, h1, h2, hp, hm⟩
      simp [isMatchPatterns, (scanPatterns_invalid g v pre post bad h1 h2).1 ⟨p, hp, hm⟩]

theorem BranchCondition.isMatch_iff' (g : GlobLang) (c : BranchCondition) (p : ConditionPayload) :
    c.isMatch g p = true ↔ BranchSpec' g c p := by
  unfold BranchCondition.isMatch BranchSpec'
  cases h1 : c.branches with
  | none =>
    cases h2 : c.paths with
    | none => simp
    | some ps => simp [isMatchPatterns_iff g ps]
  | some bs =>
    have e1 := isMatchPatterns_iff g bs [p.branch]
    cases h2 : c.paths with
    | none =>
      by_cases hm : isMatchPatterns g bs [p.branch] = true <;> simp [hm] at e1 ⊢ <;> simp [e1]
    | some ps =>
      have e2 := isMatchPatterns_iff g ps p.paths
      by_cases hm : isMatchPatterns g bs [p.branch] = true <;> simp [hm] at e1 ⊢ <;> simp [e1, e2]

end AstroRun
