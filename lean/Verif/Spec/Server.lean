import Verif.Model.Server

/-! # Specification vocabulary: the remote runner's server -/

namespace AstroRun.Spec
open Wire
open AstroRun

/-- A state of a server with `n` plugins that a schedule of requests leads to. -/
def ServerReach {Pl : Type} (n : Nat) (hooks : ServerHooks Pl) (acts : List (ServerAct Pl)) (s : ServerState Pl) :
    Prop :=
  runs (ServerState.step n hooks) {} acts = some s

/-- Is it a cancel or timeout (rather than a notification)? -/
def isSignal {Pl : Type} : ProtocolEvent Pl → Bool
  | .signal _ => true
  | _ => false

/-- The calls made on behalf of request `i`, in order: the observer and what it was given. -/
def observersCalled {Pl : Type} (calls : List (Nat × Nat × ProtocolEvent Pl)) (i : Nat) :
    List (Nat × ProtocolEvent Pl) :=
  (calls.filter fun c => c.1 == i).map Prod.snd

/-- One call of each of the first `n` observers with event `e`. -/
def oneCallEach {Pl : Type} (n : Nat) (e : ProtocolEvent Pl) : List (Nat × ProtocolEvent Pl) :=
  (List.range n).map fun k => (k, e)

/-- The last of the given values, or else the default. -/
def lastOr {α : Type} (l : List α) (d : α) : α := l.getLast?.getD d

/-! ## Signals of the steps a server executes -/

/-- What concerns the signals: a step is started, a signal for a step is handled, the completion of a step is
handled. -/
inductive SrvOp
  | run (id : StepId)
  | signal (id : StepId) (v : Signal)
  | done (id : StepId)
  deriving DecidableEq, Repr

/-- The events of the requests received, in order of arrival. -/
def received {Pl : Type} (acts : List (ServerAct Pl)) : List (ProtocolEvent Pl) :=
  acts.filterMap fun a => match a with | .recv e => some e | _ => none

/-- Has the handler of request `i` moved? -/
def moved {Pl : Type} (acts : List (ServerAct Pl)) (i : Nat) : Bool :=
  acts.any fun a => match a with | .next j => j == i | _ => false

/-- What move `a` does after the moves `pre`: a handler looks at its event when it first moves. -/
def srvOp {Pl : Type} (pre : List (ServerAct Pl)) : ServerAct Pl → List SrvOp
  | .run id => [.run id]
  | .recv _ => []
  | .next i => if moved pre i then [] else match (received pre)[i]? with
    | some (.signal e) => [.signal e.stepId e.signal]
    | some (.stepCompleted r) => [.done r.id]
    | _ => []

/-- What a schedule does to the signals, in order. -/
def srvOps {Pl : Type} (pre : List (ServerAct Pl)) : List (ServerAct Pl) → List SrvOp
  | [] => []
  | a :: rest => srvOp pre a ++ srvOps (pre ++ [a]) rest

/-- The step is started again or reported complete. -/
def ends (id : StepId) : SrvOp → Bool
  | .run i => decide (i = id)
  | .done i => decide (i = id)
  | .signal _ _ => false

/-- The number of steps started. -/
def startedRuns (ops : List SrvOp) : Nat := (ops.filter fun o => match o with | .run _ => true | _ => false).length

/-- The first signal for the step. -/
def firstSignal (id : StepId) (ops : List SrvOp) : Option Signal :=
  ops.findSome? fun o => match o with
    | .signal i v => if i = id then some v else none
    | _ => none

/-- The first signal for the step that was handled after it was started and before it was started again or
reported complete, if `after` is what happened since. -/
def signalOf (id : StepId) (after : List SrvOp) : Option Signal :=
  firstSignal id (after.takeWhile fun o => !ends id o)

end AstroRun.Spec
