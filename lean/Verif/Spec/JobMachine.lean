import Verif.Model.JobMachine

/-! # Specification vocabulary: schedules of a job -/

namespace AstroRun.Spec
open AstroRun

/-- `m` is reached from a fresh job by the schedule `acts`. -/
def JobReach (job : Job) (t : Time) (acts : List JobAct) (m : JobM) : Prop :=
  runs JobM.step (JobM.initial job t) acts = some m

/-- Log entries the runner wrote since it was last called. -/
def written (acts : List JobAct) : List Log :=
  acts.foldl (fun ls a => match a with | .call => [] | .push l => ls ++ [l] | _ => ls) []

/-- The first result the runner ended with since it was last called. -/
def firstEnd (acts : List JobAct) : Option RunResult :=
  acts.foldl (fun r a => match a with | .call => none | .endStream x => r.or (some x) | _ => r) none

/-- Moves that are not the engine's. -/
def External : JobAct → Prop
  | .tick _ | .push _ | .endStream _ | .cancel => True
  | _ => False

/-- Time passing during a schedule. -/
def ticks (acts : List JobAct) : Nat :=
  acts.foldl (fun n a => match a with | .tick k => n + k | _ => n) 0

/-- During the current step the engine sat in one `select!` iteration for at least `T` and then took the timer
branch. -/
def IdleTimeout (acts : List JobAct) (T : Nat) : Prop :=
  ∃ p q rest, acts = p ++ .enter :: (q ++ .timer :: rest) ∧ (∀ a ∈ q, External a) ∧ T ≤ ticks q ∧
    JobAct.call ∉ rest

/-- The step being executed, if any. -/
def runningStep : JobPc → Option Step
  | .calling s _ | .handling s _ | .select s _ _ => some s
  | _ => none

end AstroRun.Spec
