import Verif.Model.Types

/-!
# The log stream between a runner and the engine

crates/astro-run/src/stream.rs.  The shared state is guarded by one mutex, so each locked region is one
atomic transition.  `StreamSender::end` has *two* locked regions (the `is_ended` check and the write), which
are separate transitions here.  A `Waker` is the number of the task it wakes.
-/

namespace AstroRun

/-- crates/astro-run/src/stream.rs:6-10 (`SharedState`) together with the receiver's `current_index` (12-15). -/
structure StreamState where
  logs : List Log := []
  result : Option RunResult := none
  waker : Option Nat := none
  index : Nat := 0
  deriving DecidableEq, Repr, Inhabited

/-- What `poll_next` returns. -/
inductive PollOut
  | item (l : Log)
  | eos
  | pending
  deriving DecidableEq, Repr

/-- crates/astro-run/src/stream.rs:71-78 (`log`) and 80-87 (`error`): push one entry and take the waker.
Second component: the task woken. -/
def StreamState.push (s : StreamState) (l : Log) : StreamState × Option Nat :=
  ({ s with logs := s.logs ++ [l], waker := none }, s.waker)

/-- crates/astro-run/src/stream.rs:71-78 -/
def StreamState.log (s : StreamState) (m : String) : StreamState × Option Nat := s.push (Log.ofLog m)

/-- crates/astro-run/src/stream.rs:80-87 -/
def StreamState.error (s : StreamState) (m : String) : StreamState × Option Nat := s.push (Log.ofError m)

/-- crates/astro-run/src/stream.rs:120-122 (`is_ended`) -/
def StreamState.isEnded (s : StreamState) : Bool := s.result.isSome

/-- crates/astro-run/src/stream.rs:112-117: the second locked region of `end`, reached only when the check
in 107-110 found no result. -/
def StreamState.endWrite (s : StreamState) (r : RunResult) : StreamState × Option Nat :=
  ({ s with result := some r, waker := none }, s.waker)

/-- crates/astro-run/src/stream.rs:106-118 (`end`) when nobody else interferes between its two regions. -/
def StreamState.endSeq (s : StreamState) (r : RunResult) : StreamState × Option Nat :=
  if s.isEnded then (s, none) else s.endWrite r

/-- crates/astro-run/src/stream.rs:89-104 (`succeeded`, `cancelled`, `failed`, `timeout`) -/
def StreamState.timeoutResult : RunResult := .failed 123

/-- crates/astro-run/src/stream.rs:33-58 (`poll_next`) by task `t`.  (The `wake_by_ref` on line 49 schedules
the polling task itself again; it is accounted for by leaving that task runnable.) -/
def StreamState.poll (s : StreamState) (t : Nat) : StreamState × PollOut :=
  let s1 := { s with waker := some t }
  match s.logs[s.index]? with
  | some l => ({ s1 with index := s.index + 1 }, .item l)
  | none => if s.result.isSome then (s1, .eos) else (s1, .pending)

/-! ## One consumer task, any number of producers -/

/-- Scheduling status of the consumer. -/
inductive ConsStatus
  | runnable | parked | finished
  deriving DecidableEq, Repr

/-- The stream, its consumer (task `0`), what the consumer has received, and the `end` calls that have passed
their `is_ended` check but not yet written (in flight). -/
structure StreamSys where
  st : StreamState := {}
  cons : ConsStatus := .runnable
  received : List Log := []
  inFlight : List RunResult := []
  deriving DecidableEq, Repr

/-- Moves: the executor polls the runnable consumer; a producer pushes an entry; a producer enters `end`
(first locked region) or completes the `i`-th in-flight `end` (second locked region). -/
inductive StreamAct
  | poll
  | push (l : Log)
  | endCheck (r : RunResult)
  | endWrite (i : Nat)
  deriving DecidableEq, Repr

/-- Wake the consumer if it is the task that was woken. -/
def ConsStatus.wake (c : ConsStatus) (woken : Option Nat) : ConsStatus :=
  if c = .parked ∧ woken = some 0 then .runnable else c

/-- One move; `none` if the move is not possible. -/
def StreamSys.step (s : StreamSys) : StreamAct → Option StreamSys
  | .poll =>
    match s.cons with
    | .runnable =>
      match s.st.poll 0 with
      | (st', .item l) => some { s with st := st', received := s.received ++ [l] }
      | (st', .eos) => some { s with st := st', cons := .finished }
      | (st', .pending) => some { s with st := st', cons := .parked }
    | _ => none
  | .push l =>
    let (st', w) := s.st.push l
    some { s with st := st', cons := s.cons.wake w }
  | .endCheck r =>
    if s.st.isEnded then some s
    else some { s with inFlight := s.inFlight ++ [r] }
  | .endWrite i =>
    match s.inFlight[i]? with
    | none => none
    | some r =>
      let (st', w) := s.st.endWrite r
      some { s with st := st', cons := s.cons.wake w, inFlight := s.inFlight.eraseIdx i }

/-- Run a schedule. -/
def StreamSys.runActs (s : StreamSys) : List StreamAct → Option StreamSys
  | [] => some s
  | a :: as => match s.step a with
    | some s' => s'.runActs as
    | none => none

end AstroRun
