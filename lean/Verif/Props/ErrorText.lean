import Verif.Model.ErrorText
import Verif.Lemmas.Runner

/-! # C91: errors, log types and signals as text -/

namespace AstroRun
open ErrorText

/-- The text before the message. -/
def ErrorText.pre : Err → List Char
  | .workflowConfig _ => "Failed to parse user config: ".toList
  | .internalRuntime _ => "Error while running workflow: ".toList
  | .failed _ => "Failed with exit code: ".toList
  | .error _ => "Error: ".toList
  | .io _ => "IO error: ".toList
  | .init _ => "Failed to initialize workflow: ".toList
  | .unsupported _ => "Unsupported feature: ".toList

theorem ErrorText.prefix_of_eq {α : Type} {p q m n : List α} (h : p ++ m = q ++ n) : p <+: q ∨ q <+: p := by
  have h1 : p <+: q ++ n := ⟨m, h⟩
  have h2 : q <+: q ++ n := ⟨n, rfl⟩
  exact List.prefix_or_prefix_of_prefix h1 h2

theorem ErrorText.text_pre (a : Err) : ∃ m, a.text.toList = ErrorText.pre a ++ m := by
  cases a <;> exact ⟨_, String.toList_append ..⟩

/-- The texts before the message, in the order of the classes. -/
def ErrorText.table : List (List Char) :=
  ["Failed to parse user config: ".toList, "Error while running workflow: ".toList, "Failed with exit code: ".toList,
   "Error: ".toList, "IO error: ".toList, "Failed to initialize workflow: ".toList, "Unsupported feature: ".toList]

theorem ErrorText.pre_table (a : Err) : ErrorText.pre a = ErrorText.table.getD a.ctorIdx [] := by cases a <;> rfl

theorem ErrorText.table_distinct : ∀ i, i < 7 → ∀ j, j < 7 →
    ErrorText.table.getD i [] <+: ErrorText.table.getD j [] → i = j := by
  decide +kernel

/-- The text tells the class of the error. -/
theorem ErrorText.text_class (a b : Err) (h : a.text = b.text) : a.ctorIdx = b.ctorIdx := by
  obtain ⟨m, hm⟩ := ErrorText.text_pre a
  obtain ⟨n, hn⟩ := ErrorText.text_pre b
  have := ErrorText.prefix_of_eq (hm.symm.trans ((congrArg String.toList h).trans hn))
  have pa := ErrorText.pre_table a
  have pb := ErrorText.pre_table b
  rw [pa, pb] at this
  have ha : a.ctorIdx < 7 := by cases a <;> simp [Err.ctorIdx]
  have hb : b.ctorIdx < 7 := by cases b <;> simp [Err.ctorIdx]
  rcases this with e | e
  · exact ErrorText.table_distinct _ ha _ hb e
  · exact (ErrorText.table_distinct _ hb _ ha e).symm

/-- **C91** Comparing errors is an equivalence. -/
theorem C91_equivalence : (∀ a : Err, a.same a = true) ∧ (∀ a b : Err, a.same b = true → b.same a = true) ∧
    (∀ a b c : Err, a.same b = true → b.same c = true → a.same c = true) := by
  refine ⟨?_, ?_, ?_⟩
  · intro a; cases a <;> simp [Err.same]
  · intro a b h
    cases a <;> cases b <;> simp_all [Err.same]
  · intro a b c h1 h2
    cases a <;> cases b <;> first
      | (simp [Err.same] at h1; done)
      | (cases c <;> simp_all [Err.same])

/-- **C91** Two errors that are not both I/O errors are equal exactly if they print the same text. -/
theorem C91_message (a b : Err) (h : ∀ x y, a = .io x → b ≠ .io y) : a.same b = true ↔ a.text = b.text := by
  constructor
  · intro hs
    cases a <;> cases b <;> first
      | (simp [Err.same] at hs; done)
      | (simp only [Err.same, beq_iff_eq] at hs; subst hs; rfl)
      | exact absurd rfl (h _ _ rfl)
  · intro ht
    have hc := ErrorText.text_class a b ht
    have cancel : ∀ p m n : String, p ++ m = p ++ n → m = n := by
      intro p m n e
      have := congrArg String.toList e
      rw [String.toList_append, String.toList_append, List.append_cancel_left_eq] at this
      exact String.toList_inj.1 this
    cases a with
    | io x =>
      cases b <;> first
        | exact absurd rfl (h _ _ rfl)
        | exact absurd hc (by simp [Err.ctorIdx])
    | failed m =>
      cases b <;> first
        | (rename_i n; simp [Err.same, repr_injective (cancel _ _ _ ht)]; done)
        | exact absurd hc (by simp [Err.ctorIdx])
    | workflowConfig m | internalRuntime m | error m | init m | unsupported m =>
      cases b <;> first
        | (rename_i n; simp [Err.same, cancel _ _ _ ht]; done)
        | exact absurd hc (by simp [Err.ctorIdx])

/-- **C91** Two I/O errors are equal exactly if they have the same kind, whatever their texts. -/
theorem C91_io (a b : IoError) : (Err.io a).same (.io b) = true ↔ a.kind = b.kind := by
  simp [Err.same]

/-- **C91** A log type and a signal are read back from their text; any other text is the log type `log`, and no
signal. -/
theorem C91_read_back : (∀ t : LogType, logOfText (logText t) = t) ∧ (∀ g : Signal, signalOfText (signalText g) = some g) ∧
    (∀ s : String, (∀ t : LogType, s ≠ logText t) → logOfText s = .log) ∧
    (∀ s : String, (∀ g : Signal, s ≠ signalText g) ↔ signalOfText s = none) := by
  refine ⟨fun t => by cases t <;> rfl, fun g => by cases g <;> rfl, ?_, ?_⟩
  · intro s h
    have h1 := h .error
    simp only [logText] at h1
    simp [logOfText, h1]
  · intro s
    constructor
    · intro h
      have h1 := h .cancel
      have h2 := h .timeout
      simp only [signalText] at h1 h2
      simp [signalOfText, h1, h2]
    · intro h g e
      subst e
      cases g <;> simp [signalOfText, signalText] at h

/-! ### Concrete cases -/

example : (Err.failed 2).same (.error "Failed with exit code: 2") = false := rfl
example : (Err.io ⟨2, "no such file"⟩).same (.io ⟨2, "file not found"⟩) = true ∧
    (Err.io ⟨2, "no such file"⟩).text ≠ (Err.io ⟨2, "file not found"⟩).text := by decide
example : signalOfText "Cancel" = none ∧ logOfText "warning" = .log := by decide

end AstroRun
