import Verif.Model.Logger

/-! # Specification vocabulary: the logger -/

namespace AstroRun.Logging

/-- The process got into `s` by these steps. -/
def LogReach (acts : List Act) (s : Sys) : Prop := Sys.run {} acts = some s

/-- `s'` is a later state. -/
def Later (s s' : Sys) : Prop := ∃ acts, s.run acts = some s'

/-- Some initialisation has returned. -/
def Ready (s : Sys) : Prop := ∃ c : Init × Pc, c ∈ s.calls ∧ c.2 = .returned

/-- The levels, the most serious first. -/
def severities : List Level := [.error, .warn, .info, .debug, .trace]

/-- `a` is as serious as `b`, or more. -/
def AsSerious (a b : Level) : Prop := severities.idxOf a ≤ severities.idxOf b

instance (a b : Level) : Decidable (AsSerious a b) := inferInstanceAs (Decidable (_ ≤ _))

/-- From `s` on the configured level is `l`: in every later state a line is printed exactly if it is as serious as `l`. -/
def Configured (s : Sys) (l : Level) : Prop :=
  ∀ s', Later s s' → ∀ lv msg, ∃ s'', s'.step (.log lv msg) = some s'' ∧
    s''.printed = s'.printed ++ (if AsSerious lv l then [(lv, msg)] else [])

/-- The call has neither returned nor panicked. -/
def Pending (c : Init × Pc) : Prop := c.2 ≠ .returned ∧ c.2 ≠ .panicked

/-- The name of a level. -/
def levelName : Level → String
  | .error => "ERROR"
  | .warn => "WARN"
  | .info => "INFO"
  | .debug => "DEBUG"
  | .trace => "TRACE"

/-- Two characters are the same, or the first is the small letter of the second. -/
def SameLetter (a b : Char) : Prop := a = b ∨ ('a' ≤ a ∧ a ≤ 'z' ∧ a.toNat = b.toNat + 32)

/-- The text is the name of the level, in any mix of small and capital letters. -/
def Names (s : String) (l : Level) : Prop :=
  s.toList.length = (levelName l).toList.length ∧
    ∀ p ∈ s.toList.zip (levelName l).toList, SameLetter p.1 p.2

/-- The steps call `i` took. -/
def stepsOf (i : Nat) (acts : List Act) : Nat := acts.count (.go i)

end AstroRun.Logging
