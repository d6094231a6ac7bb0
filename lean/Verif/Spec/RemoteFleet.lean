import Verif.Model.RemoteFleet
import Verif.Spec.RemoteStack
import Verif.Spec.Scheduler

/-! # Specification vocabulary: a job on a fleet of servers -/

namespace AstroRun.Spec
open AstroRun

/-- `f` is a state the history `acts` leads to. -/
def FleetReach (version : String) (job : Job) (t : Time) (acts : List FleetAct) (f : RemoteFleet) : Prop :=
  runs RemoteFleet.step (RemoteFleet.initial version job t) acts = some f

/-- The servers that have been reached in this history, in order, as they described themselves. -/
def reached (acts : List FleetAct) : List RunnerMeta :=
  acts.filterMap fun
    | .connect (.ok md) => some md
    | _ => none

/-- After this history `id` names a server, of the client's version, that described itself as `md`; of several with this name it
is the first. -/
def KnownAs (version : String) (acts : List FleetAct) (id : Id) (md : RunnerMeta) : Prop :=
  (reached acts).find? (fun md => decide (md.id = id ∧ md.version = version)) = some md

/-- Nothing but the job itself asks the scheduler for a runner for this job: there is no other run of it, before or at the same time. -/
def OnlyRun (job : Job) (acts : List FleetAct) : Prop :=
  ∀ rs c, .sched (.call rs c) ∈ acts → c.id.jobId ≠ job.id

/-- The step can go on where the job's docker steps run: it is a docker step itself, or the platform of this server is the one it asks
for (given with the architecture, support of host steps is not required). -/
def Suits (r : RunnerMeta) (c : Command) : Prop :=
  ∀ name, WantsHost c name → (r.supportHost = true ∧ name = "host/" ++ r.os) ∨ name = "host/" ++ r.os ++ "-" ++ r.arch

/-- In this history the job last asked for a server after `pre`. -/
def AskedAfter (acts pre : List FleetAct) : Prop :=
  ∃ rs post, acts = pre ++ .ask rs :: post ∧ ∀ rs', .ask rs' ∉ post

/-- The moves of the job's own call of the client: asking the scheduler, its work on call `k`, the answer. -/
def isOwnCall (k : Nat) : FleetAct → Bool
  | .ask _ | .reply => true
  | .sched (.lookup i) | .sched (.pick i) | .sched (.commit i) => i == k
  | _ => false

end AstroRun.Spec
