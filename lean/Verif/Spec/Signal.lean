import Verif.Model.Signal

/-! # Specification vocabulary for signals -/

namespace AstroRun

/-- The value written by the first `cancel()`/`timeout()` call of a history, if there is one. -/
def firstSet : List SigOp → Option Signal
  | [] => none
  | .set v :: _ => some v
  | .poll _ :: os => firstSet os

/-- Values delivered to receivers over a history. -/
def readyValues (outs : List SigOut) : List Signal :=
  outs.filterMap fun | .ready v => some v | _ => none

/-- Reachable states of one receiver plus any number of setters. -/
def RxReach (s : RxSys) : Prop := ∃ acts, ({} : RxSys).runActs acts = some s

end AstroRun
