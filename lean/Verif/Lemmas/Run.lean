import Verif.Model.Run

namespace AstroRun
variable {σ α : Type} {step : σ → α → Option σ}

theorem runs_append (s : σ) (p q : List α) : runs step s (p ++ q) = (runs step s p).bind (runs step · q) := by
  induction p generalizing s with
  | nil => rfl
  | cons a as ih =>
    simp only [List.cons_append, runs]
    cases step s a <;> simp [ih]

theorem runs_snoc {s s' : σ} {acts : List α} {a : α} :
    runs step s (acts ++ [a]) = some s' ↔ ∃ s0, runs step s acts = some s0 ∧ step s0 a = some s' := by
  rw [runs_append]
  cases h0 : runs step s acts with
  | none => simp
  | some s0 =>
    simp only [Option.bind_some, runs, Option.some.injEq, exists_eq_left']
    cases hs : step s0 a <;> simp

theorem runs_split {s s' : σ} {p q : List α} (h : runs step s (p ++ q) = some s') :
    ∃ s0, runs step s p = some s0 ∧ runs step s0 q = some s' := by
  rw [runs_append] at h
  cases h0 : runs step s p with
  | none => simp [h0] at h
  | some s0 => exact ⟨s0, rfl, by simpa [h0] using h⟩

/-- Induction over schedules, from the end. -/
theorem runs_induct {s0 : σ} {P : List α → σ → Prop} (h0 : P [] s0)
    (hs : ∀ acts a s s', runs step s0 acts = some s → P acts s → step s a = some s' → P (acts ++ [a]) s')
    {acts : List α} {s : σ} (h : runs step s0 acts = some s) : P acts s := by
  obtain ⟨n, hn⟩ : ∃ n, acts.length = n := ⟨_, rfl⟩
  induction n generalizing acts s with
  | zero =>
    have : acts = [] := List.length_eq_zero_iff.1 hn
    subst this
    simp [runs] at h
    exact h ▸ h0
  | succ n ih =>
    rcases List.eq_nil_or_concat acts with rfl | ⟨as, a, rfl⟩
    · simp at hn
    · rw [List.concat_eq_append] at h ⊢
      obtain ⟨s1, h1, h2⟩ := runs_snoc.1 h
      exact hs _ _ _ _ h1 (ih h1 (by simpa using hn)) h2

end AstroRun
