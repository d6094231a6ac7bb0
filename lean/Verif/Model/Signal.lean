import Verif.Model.Types

/-!
# `AstroRunSignal`

crates/astro-run/src/signals/signal.rs.  Every method body runs under one `parking_lot::Mutex`, so it
is one atomic transition.  A `Waker` is the identity (a number) of the task it wakes.
-/

namespace AstroRun

/-- crates/astro-run/src/signals/signal.rs:16-21 (`SignalState`); initial value from `Default`. -/
structure SigState where
  isNotified : Bool := false
  signal : Option Signal := none
  waker : Option Nat := none
  deriving DecidableEq, Repr, Inhabited

/-- Result of `cancel()` / `timeout()`: the new state, whether it returned `Ok`, and the task it woke. -/
structure SetOut where
  state : SigState
  ok : Bool
  woken : Option Nat
  deriving DecidableEq, Repr

/-- crates/astro-run/src/signals/signal.rs:40-53 (`cancel`) and 55-69 (`timeout`): the two bodies
differ only in the value stored, which is the parameter `v`. -/
def SigState.set (s : SigState) (v : Signal) : SetOut :=
  match s.signal with
  | some _ => { state := s, ok := false, woken := none }
  | none => { state := { s with signal := some v, waker := none }, ok := true, woken := s.waker }

/-- crates/astro-run/src/signals/signal.rs:83-98 (`Receiver::poll`) by task `t`;
`none` is `Poll::Pending`. -/
def SigState.poll (s : SigState) (t : Nat) : SigState × Option Signal :=
  if s.isNotified then (s, none)
  else match s.signal with
    | some v => ({ s with isNotified := true }, some v)
    | none => ({ s with waker := some t }, none)

/-- crates/astro-run/src/signals/signal.rs:71-73 -/
def SigState.isCancelled (s : SigState) : Bool := s.signal == some .cancel

/-- crates/astro-run/src/signals/signal.rs:75-77 -/
def SigState.isTimeout (s : SigState) : Bool := s.signal == some .timeout

/-- An operation some holder of a clone of the signal performs. -/
inductive SigOp
  | set (v : Signal)
  | poll (task : Nat)
  deriving DecidableEq, Repr

/-- What the caller of an operation sees. -/
inductive SigOut
  | setOk | setErr
  | pending | ready (v : Signal)
  deriving DecidableEq, Repr

/-- One operation on the shared signal. -/
def SigState.op (s : SigState) : SigOp → SigState × SigOut
  | .set v => let o := s.set v; (o.state, if o.ok then .setOk else .setErr)
  | .poll t => match s.poll t with
    | (s', some v) => (s', .ready v)
    | (s', none) => (s', .pending)

/-- A history of operations, by any number of clones in any order; returns the outputs in order. -/
def SigState.exec (s : SigState) : List SigOp → SigState × List SigOut
  | [] => (s, [])
  | o :: os =>
    let (s', out) := s.op o
    let (s'', outs) := s'.exec os
    (s'', out :: outs)

/-! ## One receiver task and any number of setters -/

/-- Scheduling status of the receiver's task. -/
inductive RxStatus
  /-- runnable: it will be polled -/
  | runnable
  /-- its last poll returned `Pending` and it has not been woken since -/
  | parked
  /-- its future resolved with `v` -/
  | got (v : Signal)
  deriving DecidableEq, Repr

/-- A signal shared with one receiver task (number `0`). -/
structure RxSys where
  sig : SigState := {}
  rx : RxStatus := .runnable
  deriving DecidableEq, Repr

/-- Moves of the system: the executor polls the runnable receiver, or some thread sets the signal. -/
inductive RxAct
  | poll
  | set (v : Signal)
  deriving DecidableEq, Repr

/-- signal.rs:40-69 and 83-98 in the context of a task executor: a woken parked task is runnable again. -/
def RxSys.step (s : RxSys) : RxAct → Option RxSys
  | .poll =>
    match s.rx with
    | .runnable =>
      match s.sig.poll 0 with
      | (sig', some v) => some { sig := sig', rx := .got v }
      | (sig', none) => some { sig := sig', rx := .parked }
    | _ => none
  | .set v =>
    let o := s.sig.set v
    some { sig := o.state,
           rx := if s.rx = .parked ∧ o.woken = some 0 then .runnable else s.rx }

/-- Run a schedule; `none` if it asks for an impossible move. -/
def RxSys.runActs (s : RxSys) : List RxAct → Option RxSys
  | [] => some s
  | a :: as => match s.step a with
    | some s' => s'.runActs as
    | none => none

end AstroRun
