import Verif.Model.Faults
import Verif.Spec.SystemAlone

/-! # Specification vocabulary: runs that are given up, jobs whose user code panics -/

namespace AstroRun.Spec
open AstroRun

/-- `F` is reached from a fresh engine by the schedule `acts`. -/
def FaultReach (acts : List FaultAct) (F : Faulty) : Prop := runs Faulty.step ({} : Faulty) acts = some F

/-- The moves of the engine in a schedule. -/
def goes (acts : List FaultAct) : List SysAct := acts.filterMap fun | .go a => some a | _ => none

/-- A move of job task `i` of run `r` or of the runner working for it, other than delivering the result to the workflow. -/
def ownWork (r i : Nat) (a : SysAct) : Prop := ∃ b : TaskAct, a = .task r i b ∧ b ≠ .send

/-- The steps of the job carry its id. -/
def OwnSteps (job : Job) : Prop := ∀ s ∈ job.steps, s.id.jobId = job.id

end AstroRun.Spec
