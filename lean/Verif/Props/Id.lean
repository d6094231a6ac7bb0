import Verif.Lemmas.Id

/-!
# Identifier text (C40) and step/command conversion (C41)
-/

namespace AstroRun

/-- **C40** printing then parsing.  A non-empty workflow id, a job id and a step id (with a number that fits
`usize`) whose parts contain no `/` are parsed back from their printed text. -/
theorem C40_parse_print (w j : String) (n : Nat) (hw : NoSlash w) (hj : NoSlash j) :
    (w.toList ≠ [] → WorkflowId.parse (WorkflowId.toStr ⟨w⟩) = .ok ⟨w⟩) ∧
    JobId.parse (JobId.toStr ⟨w, j⟩) = .ok ⟨w, j⟩ ∧
    (n < usizeBound → StepId.parse (StepId.toStr ⟨w, j, n⟩) = .ok ⟨w, j, n⟩) := by
  refine ⟨fun h => ?_, ?_, fun hn => ?_⟩
  · simp [WorkflowId.parse, WorkflowId.toStr] at h ⊢
    simp [h]
  · simp only [JobId.parse, JobId.toStr_toList]
    rw [splitSlash_append _ hw, splitSlash_noSlash hj]
    simp
  · simp only [StepId.parse, StepId.toStr_toList]
    rw [splitSlash_append _ hw, splitSlash_append _ hj, splitSlash_noSlash (toDigits_noSlash n)]
    simp [parseUsize_toDigits, hn]

example : NoSlash "build" ∧ NoSlash "test-1" ∧ ("build".toList ≠ []) ∧ 7 < usizeBound := by decide

/-- **C40** parsing accepts exactly the texts of that shape: a workflow text is the non-empty id itself; a job text
is two `/`-free parts around a `/`; a step text is two `/`-free parts and a numeral whose value is the step number. -/
theorem C40_parse_exact (s : String) :
    (∀ w, WorkflowId.parse s = .ok w ↔ w.id = s ∧ s ≠ "") ∧
    (∀ j, JobId.parse s = .ok j ↔ s = j.workflow ++ "/" ++ j.job ∧ NoSlash j.workflow ∧ NoSlash j.job) ∧
    (∀ i, StepId.parse s = .ok i ↔ NoSlash i.workflow ∧ NoSlash i.job ∧
      ∃ numeral : String, s = i.workflow ++ "/" ++ i.job ++ "/" ++ numeral ∧ Numeral numeral i.number) := by
  have hj := splitSlash_join s.toList
  have hp := splitSlash_pieces s.toList
  refine ⟨fun w => ⟨fun h => ?_, fun h => ?_⟩, fun j => ⟨fun h => ?_, fun h => ?_⟩, fun i => ⟨fun h => ?_, fun h => ?_⟩⟩
  · unfold WorkflowId.parse at h
    split at h
    · cases h
    · next hne => cases h; exact ⟨rfl, fun h => hne (by simp [h])⟩
  · obtain ⟨rfl, h⟩ := h
    unfold WorkflowId.parse
    rw [if_neg (by simpa using h)]
  · unfold JobId.parse at h
    split at h
    · next a b hs =>
      rw [hs] at hj hp
      cases h
      refine ⟨?_, by simpa [NoSlash] using hp a (by simp), by simpa [NoSlash] using hp b (by simp)⟩
      apply String.toList_inj.1
      rw [← hj]
      simp [List.intercalate, String.toList_append]
    · cases h
  · obtain ⟨rfl, h1, h2⟩ := h
    exact (C40_parse_print j.workflow j.job 0 h1 h2).2.1
  · unfold StepId.parse at h
    split at h
    · next a b c hs =>
      rw [hs] at hj hp
      split at h
      · next n hn =>
        cases h
        refine ⟨by simpa [NoSlash] using hp a (by simp), by simpa [NoSlash] using hp b (by simp),
          String.ofList c, ?_, parseUsize_some.1 (by simpa using hn)⟩
        apply String.toList_inj.1
        rw [← hj]
        simp [List.intercalate, String.toList_append]
      · cases h
    · cases h
  · obtain ⟨h1, h2, numeral, hs, hn⟩ := h
    have hsl : '/' ∉ numeral.toList := by
      obtain ⟨ds, hd, -, hc, -⟩ := hn
      intro hm
      rcases hd with hd | hd <;> rw [hd] at hm
      · exact absurd (hc _ hm) (by decide)
      · rcases List.mem_cons.1 hm with hm | hm
        · exact absurd hm (by decide)
        · exact absurd (hc _ hm) (by decide)
    have e : s.toList = i.workflow.toList ++ '/' :: (i.job.toList ++ '/' :: numeral.toList) := by
      rw [hs]; simp [String.toList_append]
    unfold StepId.parse
    rw [e, splitSlash_append _ h1, splitSlash_append _ h2, splitSlash_noSlash hsl]
    simp only [parseUsize_some.2 hn, String.ofList_toList]

example : Numeral "+07" 7 ∧ ¬ ∃ n, Numeral "+" n := by
  refine ⟨⟨['0', '7'], by decide⟩, ?_⟩
  rintro ⟨n, hn⟩
  have h := parseUsize_some.2 hn
  rw [show parseUsize "+".toList = none by decide] at h
  cases h

example : JobId.parse "wf/build" = .ok ⟨"wf", "build"⟩ ∧
    StepId.parse "wf/build/+07" = .ok ⟨"wf", "build", 7⟩ ∧ WorkflowId.parse "wf" = .ok ⟨"wf"⟩ := by
  decide

/-- **C40** distinct ids print differently, as long as parts contain no `/`. -/
theorem C40_print_injective :
    (∀ a b : WorkflowId, a.toStr = b.toStr → a = b) ∧
    (∀ a b : JobId, NoSlash a.workflow → NoSlash a.job → NoSlash b.workflow → NoSlash b.job →
      a.toStr = b.toStr → a = b) ∧
    (∀ a b : StepId, NoSlash a.workflow → NoSlash a.job → NoSlash b.workflow → NoSlash b.job →
      a.toStr = b.toStr → a = b) := by
  have key : ∀ x y u v : List Char, '/' ∉ x → '/' ∉ u → x ++ '/' :: y = u ++ '/' :: v → x = u ∧ y = v := by
    intro x y u v hx hu h
    induction x generalizing u with
    | nil => cases u with
      | nil => simpa using h
      | cons c u => simp at h; exact absurd (h.1 ▸ hu) (by simp)
    | cons c x ih => cases u with
      | nil => simp at h; exact absurd (h.1 ▸ hx) (by simp)
      | cons d u =>
        simp at h hx hu
        obtain ⟨a, b⟩ := ih u hx.2 hu.2 h.2
        exact ⟨by rw [h.1, a], b⟩
  refine ⟨fun a b h => ?_, fun a b h1 h2 h3 h4 h => ?_, fun a b h1 h2 h3 h4 h => ?_⟩
  · cases a; cases b; simpa [WorkflowId.toStr] using h
  · have := congrArg String.toList h
    rw [JobId.toStr_toList, JobId.toStr_toList] at this
    obtain ⟨p, q⟩ := key _ _ _ _ h1 h3 this
    cases a; cases b
    simp only [String.toList_inj] at p q
    simp_all
  · have := congrArg String.toList h
    rw [StepId.toStr_toList, StepId.toStr_toList] at this
    obtain ⟨p, q⟩ := key _ _ _ _ h1 h3 this
    obtain ⟨q, r⟩ := key _ _ _ _ h2 h4 q
    have hn := congrArg (fun l => Nat.ofDigitChars 10 l 0) r
    simp only [Nat.ofDigitChars_ten_toDigits] at hn
    cases a; cases b
    simp only [String.toList_inj] at p q
    simp_all

example : NoSlash (JobId.mk "w" "a").workflow ∧ NoSlash (JobId.mk "w" "b").job := by decide

/-- The `/`-freeness hypothesis of C40 is needed: with a slash in a part, two different job ids print the
same text, and a printed job id is no longer accepted as a job id. -/
theorem C40_slash_collision :
    JobId.toStr ⟨"a/b", "c"⟩ = JobId.toStr ⟨"a", "b/c"⟩ ∧
    JobId.parse (JobId.toStr ⟨"a/b", "c"⟩) ≠ .ok ⟨"a/b", "c"⟩ ∧
    WorkflowId.parse (WorkflowId.toStr ⟨""⟩) ≠ .ok ⟨""⟩ := by
  decide

/-- **C41** step → command → step keeps every field and drops the condition; command → step → command is
the identity, so two steps are sent to the runner as the same command iff they differ at most in `on`. -/
theorem C41_step_command (s t : Step) (c : Command) :
    s.toCommand.toStep = { s with on := none } ∧ c.toStep.toCommand = c ∧
    (s.toCommand = t.toCommand ↔ { s with on := none } = { t with on := none }) := by
  refine ⟨rfl, rfl, ?_⟩
  cases s; cases t
  simp [Step.toCommand]

example : (({ id := ⟨"w", "j", 0⟩, run := "ls", on := some (.event ["push"]) } : Step).toCommand.toStep).on = none := rfl

end AstroRun
