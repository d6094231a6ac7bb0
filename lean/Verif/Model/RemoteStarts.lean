import Verif.Model.Remote

/-!
# A remote client that is started more than once

`AstroRunRemoteRunnerClient` can be cloned (crates/remote-runner/src/client.rs:21-26); the clones share the map of runners, the scheduler
and the channel of events.  `start` (170-205) may be called any number of times, at once or later, for other urls.  Every
call subscribes to the channel, adds the runners it reaches to the one map, and then forwards every event to all runners in the
map.  `Verif.Model.Remote` has the same loop for a client that is started once and a map that stays as it is.

Simplifications: the version check of `connect` is C55's, so that only runners that pass it are registered here; the
order in which a hash map is walked is given with the move.
-/

namespace AstroRun

/-- Where a call of `start` is: client.rs:174-204. -/
inductive StartPc
  /-- between two urls (176) -/
  | connecting
  /-- `receiver.recv().await` (194) -/
  | waiting
  /-- sending event number `n` to the remaining runners (195-200) -/
  | sending (n : Nat) (rest : List Id)
  /-- returned, or its future was dropped: the receiver is gone -/
  | over
  deriving DecidableEq, Repr

/-- A call of `start`: its receiver's position and where it is. -/
structure StartCall where
  next : Nat
  pc : StartPc := .connecting
  deriving DecidableEq, Repr

/-- A client and its clones. -/
structure Starts where
  /-- the runners in the map (client.rs:23) -/
  clients : List Id := []
  /-- how many events were put into the channel (client.rs:25) -/
  emitted : Nat := 0
  /-- how many events were refused by the channel, there being no receiver (client.rs:67-69) -/
  refused : Nat := 0
  calls : List StartCall := []
  /-- (call, runner, event) for every request that arrived, in order -/
  delivered : List (Nat × Id × Nat) := []
  /-- the same for requests that failed (client.rs:197-199) -/
  failed : List (Nat × Id × Nat) := []
  deriving DecidableEq, Repr

/-- Moves. -/
inductive StartAct
  /-- `start` is called on some clone -/
  | start
  /-- a hook of the engine emits an event (client.rs:64-142) -/
  | emit
  /-- call `i` has connected to a url behind which runner `id` is (client.rs:178-186) -/
  | connected (i : Nat) (id : Id)
  /-- call `i` has been through its urls -/
  | allTried (i : Nat)
  /-- call `i` takes the next event; the map is walked in this order (client.rs:194-196) -/
  | recv (i : Nat) (order : List Id)
  /-- the request of call `i` arrives (client.rs:197) -/
  | sendOk (i : Nat)
  /-- the request of call `i` fails (client.rs:197-199) -/
  | sendErr (i : Nat)
  /-- the future of call `i` is dropped -/
  | drop (i : Nat)
  deriving DecidableEq, Repr

/-- Call `i` becomes `c`. -/
def Starts.put (m : Starts) (i : Nat) (c : StartCall) : Starts := { m with calls := m.calls.set i c }

/-- The loop of client.rs:194: between two events. -/
def StartPc.atRecv : StartPc → Bool
  | .waiting | .sending _ [] => true
  | _ => false

/-- One move; `none` if it is not possible. -/
def Starts.step (m : Starts) : StartAct → Option Starts
  -- client.rs:174
  | .start => some { m with calls := m.calls ++ [{ next := m.emitted }] }
  -- `broadcast::Sender::send` fails if there is no receiver
  | .emit =>
    if m.calls.any fun c => c.pc ≠ .over then some { m with emitted := m.emitted + 1 }
    else some { m with refused := m.refused + 1 }
  | .connected i id => match m.calls[i]? with
    | some c => match c.pc with
      -- client.rs:180-186
      | .connecting => if id ∈ m.clients then some m else some { m with clients := m.clients ++ [id] }
      | _ => none
    | none => none
  | .allTried i => match m.calls[i]? with
    | some c => match c.pc with
      | .connecting => some (m.put i { c with pc := .waiting })
      | _ => none
    | none => none
  | .recv i order => match m.calls[i]? with
    | some c =>
      if c.pc.atRecv then
        -- `Lagged`: the loop ends
        if m.emitted - c.next > broadcastCapacity then some (m.put i { c with pc := .over })
        else if c.next < m.emitted ∧ order.Perm m.clients then
          some (m.put i { next := c.next + 1, pc := .sending c.next order })
        else none
      else none
    | none => none
  | .sendOk i => match m.calls[i]? with
    | some c => match c.pc with
      | .sending n (id :: rest) =>
        some ({ m with delivered := m.delivered ++ [(i, id, n)] }.put i { c with pc := .sending n rest })
      | _ => none
    | none => none
  | .sendErr i => match m.calls[i]? with
    | some c => match c.pc with
      | .sending n (id :: rest) =>
        some ({ m with failed := m.failed ++ [(i, id, n)] }.put i { c with pc := .sending n rest })
      | _ => none
    | none => none
  | .drop i => match m.calls[i]? with
    | some c => if c.pc = .over then none else some (m.put i { c with pc := .over })
    | none => none

end AstroRun
