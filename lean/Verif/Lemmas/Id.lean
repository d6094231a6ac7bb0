import Verif.Model.Id
import Verif.Spec.Id

/-! # Helper lemmas for identifiers -/

namespace AstroRun

theorem splitSlash_noSlash {cs : List Char} (h : '/' ∉ cs) : splitSlash cs = [cs] := by
  induction cs with
  | nil => rfl
  | cons c cs ih =>
    simp only [List.mem_cons, not_or] at h
    simp [splitSlash, ih h.2, Ne.symm h.1]

theorem splitSlash_append {a : List Char} (b : List Char) (h : '/' ∉ a) :
    splitSlash (a ++ '/' :: b) = a :: splitSlash b := by
  induction a with
  | nil => simp [splitSlash]
  | cons c cs ih =>
    simp only [List.mem_cons, not_or] at h
    simp [splitSlash, ih h.2, Ne.symm h.1]

theorem splitSlash_ne_nil (cs : List Char) : splitSlash cs ≠ [] := by
  cases cs with
  | nil => simp [splitSlash]
  | cons c cs =>
    simp only [splitSlash]
    split
    · simp
    · split <;> simp

theorem splitSlash_pieces (cs : List Char) : ∀ p ∈ splitSlash cs, '/' ∉ p := by
  induction cs with
  | nil => simp [splitSlash]
  | cons c cs ih =>
    intro p hp
    simp only [splitSlash] at hp
    by_cases hc : c = '/'
    · simp only [hc, if_true, List.mem_cons] at hp
      rcases hp with rfl | hp
      · simp
      · exact ih p hp
    · simp only [hc, if_false] at hp
      cases hs : splitSlash cs with
      | nil => exact absurd hs (splitSlash_ne_nil cs)
      | cons q qs =>
        rw [hs] at hp ih
        simp only [List.mem_cons] at hp
        rcases hp with rfl | hp
        · simp only [List.mem_cons, not_or]
          exact ⟨Ne.symm hc, ih q (by simp)⟩
        · exact ih p (by simp [hp])

/-- joining the pieces with slashes gives the text back -/
theorem splitSlash_join (cs : List Char) : List.intercalate ['/'] (splitSlash cs) = cs := by
  induction cs with
  | nil => simp [splitSlash, List.intercalate]
  | cons c cs ih =>
    simp only [splitSlash]
    cases hs : splitSlash cs with
    | nil => exact absurd hs (splitSlash_ne_nil cs)
    | cons q qs =>
      rw [hs] at ih
      by_cases hc : c = '/'
      · simp only [hc, if_true]
        rw [← ih]
        simp [List.intercalate]
      · simp only [hc, if_false]
        rw [← ih]
        cases qs <;> simp [List.intercalate, List.intersperse]

theorem parseDigits_toDigits (n : Nat) :
    parseDigits (Nat.toDigits 10 n) = if n < usizeBound then some n else none := by
  have h1 : (Nat.toDigits 10 n).isEmpty = false := by
    simp [Nat.toDigits_ne_nil]
  have h2 : (Nat.toDigits 10 n).all Char.isDigit = true := by
    rw [List.all_eq_true]
    intro c hc
    exact Nat.isDigit_of_mem_toDigits (by decide) (by decide) hc
  simp [parseDigits, h1, h2, Nat.ofDigitChars_ten_toDigits]

theorem toDigits_noPlus (n : Nat) : ∀ c cs, Nat.toDigits 10 n = c :: cs → c ≠ '+' := by
  rintro c cs h rfl
  have : ('+' : Char).isDigit = true :=
    Nat.isDigit_of_mem_toDigits (b := 10) (n := n) (by decide) (by decide) (by rw [h]; simp)
  exact absurd this (by decide)

theorem parseUsize_toDigits (n : Nat) :
    parseUsize (Nat.toDigits 10 n) = if n < usizeBound then some n else none := by
  rw [← parseDigits_toDigits]
  unfold parseUsize
  split
  · next cs h => exact absurd rfl (toDigits_noPlus n _ _ h)
  · rfl

theorem toDigits_noSlash (n : Nat) : '/' ∉ Nat.toDigits 10 n := by
  intro h
  have : ('/' : Char).isDigit = true :=
    Nat.isDigit_of_mem_toDigits (b := 10) (n := n) (by decide) (by decide) h
  exact absurd this (by decide)

theorem JobId.toStr_toList (j : JobId) :
    j.toStr.toList = j.workflow.toList ++ '/' :: j.job.toList := by
  simp [JobId.toStr, String.toList_append]

theorem StepId.toStr_toList (s : StepId) :
    s.toStr.toList = s.workflow.toList ++ '/' :: (s.job.toList ++ '/' :: Nat.toDigits 10 s.number) := by
  simp [StepId.toStr, String.toList_append]

theorem isDigit_iff (c : Char) : c.isDigit = true ↔ 48 ≤ c.toNat ∧ c.toNat ≤ 57 := by
  simp only [Char.isDigit, Bool.and_eq_true, decide_eq_true_eq, ge_iff_le, UInt32.le_iff_toNat_le]; exact Iff.rfl

theorem ofDigitChars_digitsValue (ds : List Char) (v : Nat) :
    Nat.ofDigitChars 10 ds v = ds.foldl (fun v c => 10 * v + (c.toNat - 48)) v := by
  simp [Nat.ofDigitChars]

theorem parseDigits_some {ds : List Char} {n : Nat} :
    parseDigits ds = some n ↔ ds ≠ [] ∧ (∀ c ∈ ds, 48 ≤ c.toNat ∧ c.toNat ≤ 57) ∧ n = digitsValue ds ∧ n < 2 ^ 64 := by
  unfold parseDigits
  simp only [ofDigitChars_digitsValue, digitsValue, usizeBound]
  constructor
  · intro h
    split at h
    · cases h
    · next hc =>
      simp [isDigit_iff] at hc h
      refine ⟨hc.1, hc.2, h.2.symm, ?_⟩
      omega
  · rintro ⟨h1, h2, h3, h4⟩
    rw [if_neg (by simp [isDigit_iff, h1]; exact h2), if_pos (by omega), h3]

theorem parseUsize_some {t : String} {n : Nat} : parseUsize t.toList = some n ↔ Numeral t n := by
  unfold Numeral
  generalize t.toList = cs
  constructor
  · intro h
    unfold parseUsize at h
    split at h
    · next ds => obtain ⟨a, b, c⟩ := parseDigits_some.1 h; exact ⟨ds, .inr rfl, a, b, c⟩
    · obtain ⟨a, b, c⟩ := parseDigits_some.1 h; exact ⟨_, .inl rfl, a, b, c⟩
  · rintro ⟨ds, hd, h⟩
    rcases hd with rfl | rfl
    · unfold parseUsize
      split
      · next ds => exact absurd (h.2.1 '+' (by simp)) (by decide)
      · exact parseDigits_some.2 h
    · exact parseDigits_some.2 h

end AstroRun
