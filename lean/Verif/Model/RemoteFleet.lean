import Verif.Model.RemoteStack

/-!
# A job on a fleet of servers

The job of `RemoteStack`, whose client (crates/remote-runner/src/client.rs) is connected to servers and uses the default
scheduler (crates/scheduler/src/default.rs), which it shares with all other jobs of the engine.  What those jobs ask is arbitrary.
Simplification: their own steps, streams and servers are left out.
-/

namespace AstroRun

/-- The client, the scheduler and the job. -/
structure RemoteFleet where
  /-- the version of the client: client.rs:222 -/
  version : String
  /-- `clients`: client.rs:23 -/
  clients : AMap Id RunnerMeta := []
  sched : SchedM := {}
  net : RemoteStack
  /-- the job's call of `schedule` (client.rs:39), by its place among all calls, and the copy of `clients` made before (33) -/
  asked : Option (Nat × AMap Id RunnerMeta) := none
  /-- `unwrap` failed (client.rs:48) -/
  panicked : Bool := false
  deriving DecidableEq, Repr

/-- Moves. -/
inductive FleetAct
  /-- a move of the job, a client task, the network or a server -/
  | stk (a : RemoteStackAct)
  /-- `start` has tried one more server -/
  | connect (answer : Except Error RunnerMeta)
  /-- `Runner::run` calls `schedule` for the job's step, with the metadata of all servers in the order the hash map yields them -/
  | ask (runners : List RunnerMeta)
  /-- a move of a call of `schedule`, or a new one for another step -/
  | sched (a : SchedAct)
  /-- the job's call of `schedule` has returned, and `Runner::run` returns too -/
  | reply

/-- Moves of the stack that are not `stk` moves: what `Runner::run` of the client does (see `reply`). -/
def RemoteStackAct.byClient : RemoteStackAct → Bool
  | .dispatched _ | .noRunner => true
  | _ => false

/-- One move. -/
def RemoteFleet.step (f : RemoteFleet) : FleetAct → Option RemoteFleet
  | .stk a => if a.byClient then none else (f.net.step a).map fun n => { f with net := n }
  -- client.rs:176-192
  | .connect answer => some { f with clients := connectAll f.version f.clients [answer] }
  -- client.rs:33-39
  | .ask rs =>
    match f.net.eng.pc, f.asked with
    | .calling st _, none =>
      if rs.isPerm (f.clients.map Prod.snd) && !f.panicked then
        (f.sched.step (.call rs st.toCommand)).map fun m => { f with sched := m, asked := some (f.sched.calls.length, f.clients) }
      else none
    | _, _ => none
  -- default.rs:41-101; nobody tells the scheduler of completions (client.rs:74-92)
  | .sched a =>
    match a with
    | .call rs _ => if rs.isPerm (f.clients.map Prod.snd) then (f.sched.step a).map fun m => { f with sched := m } else none
    | .stepDone _ | .jobDone _ => none
    | .lookup _ | .pick _ | .commit _ => (f.sched.step a).map fun m => { f with sched := m }
  | .reply =>
    match f.asked with
    | some (i, clients) =>
      match f.sched.calls[i]? with
      -- client.rs:41-45
      | some ⟨_, _, .done none⟩ => (f.net.step .noRunner).map fun n => { f with net := n, asked := none }
      -- client.rs:48-61
      | some ⟨_, _, .done (some r)⟩ =>
        match clients.get? r.id with
        | some _ => (f.net.step (.dispatched r.id)).map fun n => { f with net := n, asked := none }
        | none => some { f with panicked := true, asked := none }
      | _ => none
    | none => none

/-- The job before it runs; no server is connected, no step was scheduled. -/
def RemoteFleet.initial (version : String) (job : Job) (now : Time) : RemoteFleet :=
  { version := version, net := RemoteStack.initial job now }

end AstroRun
