import Verif.Model.Config
import Mathlib.Logic.Relation

/-! # Specification vocabulary: valid configurations, dependency cycles -/

namespace AstroRun.Spec
open AstroRun

/-- The jobs a configured job waits for. -/
def deps (j : UserJob) : List String := j.dependsOn.getD []

/-- The four requirements of the English claim C34. -/
structure WellFormed (w : UserWorkflow) : Prop where
  someJob : w.jobs ≠ []
  steps : ∀ k j, (k, j) ∈ w.jobs → j.steps ≠ []
  defined : ∀ k j, (k, j) ∈ w.jobs → ∀ d ∈ deps j, ∃ j', (d, j') ∈ w.jobs
  root : ∃ k j, (k, j) ∈ w.jobs ∧ deps j = []

/-- Job `a` directly waits for job `b`. -/
def WaitsFor (w : UserWorkflow) (a b : Id) : Prop := ∃ j, (a, j) ∈ w.jobs ∧ b ∈ deps j

/-- Some job waits, directly or not, for itself. -/
def HasCycle (w : UserWorkflow) : Prop := ∃ a, Relation.TransGen (WaitsFor w) a a

end AstroRun.Spec
