import Verif.Model.SignalManager

/-! # Specification of job cancellation, by looking at the history only -/

namespace AstroRun

/-- What happened most recently to job `j`, reading a history backwards (most recent first):
`none` – it is not running (never started, or finished); `some false` – running, not cancelled since it
started; `some true` – running and cancelled since it started. -/
def jobStatusRev (j : JobId) : List MgrOp → Option Bool
  | [] => none
  | .start k :: h => if k = j then some false else jobStatusRev j h
  | .finish k :: h => if k = j then none else jobStatusRev j h
  | .cancel k :: h => if k = j then (jobStatusRev j h).map (fun _ => true) else jobStatusRev j h

/-- Status of job `j` after the history `h` (oldest first). -/
def jobStatus (j : JobId) (h : List MgrOp) : Option Bool := jobStatusRev j h.reverse

end AstroRun
