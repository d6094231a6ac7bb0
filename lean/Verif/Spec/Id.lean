import Verif.Model.Types

/-! # Specification vocabulary for identifiers -/

namespace AstroRun

/-- The text contains no `/`. -/
def NoSlash (s : String) : Prop := '/' ∉ s.toList

instance (s : String) : Decidable (NoSlash s) := inferInstanceAs (Decidable (¬ _))

/-- The value of a sequence of decimal digits, most significant first. -/
def digitsValue (ds : List Char) : Nat := ds.foldl (fun v c => 10 * v + (c.toNat - 48)) 0

/-- `t` is a numeral for `n`: at least one decimal digit, possibly after a `+`, with a value below 2^64. -/
def Numeral (t : String) (n : Nat) : Prop :=
  ∃ ds : List Char, (t.toList = ds ∨ t.toList = '+' :: ds) ∧ ds ≠ [] ∧
    (∀ c ∈ ds, 48 ≤ c.toNat ∧ c.toNat ≤ 57) ∧ n = digitsValue ds ∧ n < 2 ^ 64

end AstroRun
