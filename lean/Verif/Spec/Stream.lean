import Verif.Model.Stream

/-! # Specification vocabulary for streams -/

namespace AstroRun

/-- The log entries written by a schedule, in order. -/
def pushed (acts : List StreamAct) : List Log :=
  acts.filterMap fun | .push l => some l | _ => none

/-- States reachable from a fresh stream by the schedule `acts`. -/
def StreamRun (acts : List StreamAct) (s : StreamSys) : Prop := ({} : StreamSys).runActs acts = some s

end AstroRun
