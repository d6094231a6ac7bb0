import Verif.Model.Wire
import Verif.Model.Scheduler
import Verif.Model.Signal
import Verif.Model.Map
import Verif.Model.Run

/-!
# The remote runner's server: construction, metadata, dispatch of events

crates/remote-runner/src/runner_server.rs.  Every request is handled by a task of its own; a handler can be
interrupted by others at each `await`, i.e. at each hook it calls.  Simplifications: the execution of steps is in
`Remote`; log output is left out.
-/

namespace AstroRun
open Wire

/-- runner_server.rs:233-240.  `ρ` and `π` are the types of runners and plugins. -/
structure ServerBuilder (ρ π : Type) where
  id : Option String := none
  runner : Option ρ := none
  maxRuns : Int := 5
  supportDocker : Option Bool := none
  supportHost : Bool := true
  plugins : List π := []

/-- The builder's methods (runner_server.rs:254-289). -/
inductive ServerBuilderCall (ρ π : Type)
  | id (s : String)
  | maxRuns (n : Int)
  | supportDocker (b : Bool)
  | supportHost (b : Bool)
  | plugin (p : π)
  | runner (r : ρ)

/-- One method call. -/
def ServerBuilder.call {ρ π : Type} (b : ServerBuilder ρ π) : ServerBuilderCall ρ π → ServerBuilder ρ π
  | .id s => { b with id := some s }
  | .maxRuns n => { b with maxRuns := n }
  | .supportDocker d => { b with supportDocker := some d }
  | .supportHost h => { b with supportHost := h }
  | .plugin p => { b with plugins := b.plugins ++ [p] }
  | .runner r => { b with runner := some r }

/-- runner_server.rs:11-19, as far as it is fixed at construction. -/
structure ServerConfig (ρ π : Type) where
  id : String
  maxRuns : Int
  supportDocker : Bool
  supportHost : Bool
  runner : ρ
  plugins : List π

/-- runner_server.rs:291-317 (`build`); `dockerWorks` is the outcome of `docker ps`. -/
def ServerBuilder.build {ρ π : Type} (b : ServerBuilder ρ π) (dockerWorks : Bool) :
    Except Error (ServerConfig ρ π) :=
  match b.runner with
  | none => .error (.initError "Runner is not set")
  | some runner =>
    match b.id with
    | none => .error (.initError "Id is not set")
    | some id => .ok
      { id, runner
        maxRuns := b.maxRuns
        supportDocker := b.supportDocker.getD dockerWorks
        supportHost := b.supportHost
        plugins := b.plugins }

/-- runner_server.rs:191-206 (`get_runner_metadata`); `os`, `arch`, `version` are the constants of the server's
build. -/
def ServerConfig.metadata {ρ π : Type} (c : ServerConfig ρ π) (os arch version : String) : RunnerMeta :=
  { id := c.id, os, arch, version
    supportDocker := c.supportDocker, supportHost := c.supportHost, maxRuns := c.maxRuns }

/-! ## Events -/

/-- Where the handler of one `send_event` request is. -/
inductive ReqPc
  | fresh
  /-- the observer to be called next: the plugins are `0 ..< n`, the runner is `n` -/
  | calling (k : Nat)
  | answered (a : Except Error Unit)

/-- One `send_event` request. -/
structure ServerReq (Pl : Type) where
  event : ProtocolEvent Pl
  pc : ReqPc := .fresh

/-- The server's shared state, all requests so far (numbered in order of arrival), and a record of the hook calls. -/
structure ServerState (Pl : Type) where
  /-- signals of the contexts of the runs, in order of the runs -/
  runs : List (StepId × SigState) := []
  /-- runner_server.rs:18: which run's signal is registered for a step -/
  signals : AMap StepId Nat := []
  reqs : List (ServerReq Pl) := []
  /-- (request, observer, the event it was given) -/
  calls : List (Nat × Nat × ProtocolEvent Pl) := []
  errors : List (Nat × Error) := []

/-- Moves. -/
inductive ServerAct (Pl : Type)
  /-- a `run` request for a step -/
  | run (id : StepId)
  /-- a `send_event` request arrives -/
  | recv (e : ProtocolEvent Pl)
  /-- the handler of request `i` goes on -/
  | next (i : Nat)

/-- The hooks of the observers: what observer `k` answers to an event, as a function of all calls made so far. -/
abbrev ServerHooks (Pl : Type) := List (Nat × Nat × ProtocolEvent Pl) → Nat → ProtocolEvent Pl → Except Error Unit

/-- runner_server.rs:169-186 -/
def ServerState.signal {Pl : Type} (s : ServerState Pl) (e : SignalEvent) : ServerState Pl :=
  match s.signals.get? e.stepId with
  | some i => { s with runs := s.runs.modify i fun r => (r.1, (r.2.set e.signal).state) }
  | none => s

/-- One move, for a server with `n` plugins. -/
def ServerState.step {Pl : Type} (n : Nat) (hooks : ServerHooks Pl) (s : ServerState Pl) :
    ServerAct Pl → Option (ServerState Pl)
  -- runner_server.rs:80-98
  | .run id => some { s with runs := s.runs ++ [(id, {})], signals := s.signals.insert id s.runs.length }
  | .recv e => some { s with reqs := s.reqs ++ [{ event := e }] }
  | .next i => match s.reqs[i]? with
    | none => none
    | some r =>
      let goto (s : ServerState Pl) (pc : ReqPc) : ServerState Pl :=
        { s with reqs := s.reqs.modify i fun r => { r with pc := pc } }
      match r.pc with
      | .fresh => match r.event with
        -- 169-186, 188
        | .signal e => some (goto (s.signal e) (.answered (.ok ())))
        -- 123-127
        | .stepCompleted res => some (goto { s with signals := s.signals.erase res.id } (.calling 0))
        | _ => some (goto s (.calling 0))
      -- plugin_driver.rs:18-104, then 113-115 and the like
      | .calling k =>
        if k ≤ n then
          let s' := { s with calls := s.calls ++ [(i, k, r.event)] }
          match hooks s.calls k r.event with
          | .ok () => some (goto s' (.calling (k + 1)))
          | .error e => some (goto { s' with errors := s.errors ++ [(i, e)] } (.calling (k + 1)))
        else some (goto s (.answered (.ok ())))
      | .answered _ => none

end AstroRun
