import Verif.Model.LocalEngine
import Verif.Model.RemoteStack

/-!
# An engine whose runner is the remote runner

One `AstroRun` (`Verif.Model.System`) running any number of workflows at the same time, all of whose steps are handed to
one `AstroRunRemoteRunnerClient` (crates/remote-runner/src/client.rs:30-62), which spawns a task per step that talks to a
server (`RemoteExec`).  As in `Verif.Model.RemoteStack`, engine and client task share the step's signal
(crates/astro-run/src/execution_context/mod.rs:56-66) and the stream; each side keeps its own copy of the two, a move that writes one of
them writes both copies, and a move of the engine that reads the stream reads both.  Simplification: which server a step is
sent to is arbitrary (`RemoteClient.run` has the choice).
-/

namespace AstroRun

/-- The engine, and the calls of `Runner::run`: `calls r i` are those of job task `i` of run `r`, in order; `none` is a
call that found no runner (client.rs:39-44). -/
structure RemoteEngine where
  sys : Sys := {}
  calls : Nat → Nat → List (Option RemoteExec) := fun _ _ => []
  /-- the `signals` maps of all servers (runner_server.rs:18), as one map from server and step: the call whose signal is held -/
  signals : AMap (Id × StepId) (Nat × Nat × Nat) := []

/-- Moves. -/
inductive RemoteEngineAct
  /-- a move of the engine, the clock or an API user -/
  | sys (a : SysAct)
  /-- `Runner::run` of the client, called by job task `i` of run `r`, returns, having spawned a task that uses this server -/
  | dispatched (r i : Nat) (server : Id)
  /-- the same, but the scheduler found no runner -/
  | noRunner (r i : Nat)
  /-- a move in call `n` of job task `i` of run `r`: of the client's task, the network, the server's task or the runner on the server -/
  | net (r i n : Nat) (a : RemoteAct)
  /-- sending the signal fails in that call; it may have arrived all the same -/
  | signalFailed (r i n : Nat) (arrived : Bool)
  /-- the notification that a step of run `r` has completed arrives at a server -/
  | stepCompleted (r : Nat) (server : Id) (res : StepRunResult)

/-- Change the calls of job task `i` of run `r`. -/
def updCalls (cs : Nat → Nat → List (Option RemoteExec)) (r i : Nat) (f : List (Option RemoteExec) → List (Option RemoteExec)) :
    Nat → Nat → List (Option RemoteExec) :=
  fun r' i' => if r' = r ∧ i' = i then f (cs r' i') else cs r' i'

/-- The call the engine reads from, after move `b` of the job task: the poll of the stream, and the step's signal, now `sg`
(execution_context/mod.rs:108-140). -/
def RemoteRun.taskMoved (n : RemoteRun) (b : TaskAct) (sg : SigState) : RemoteRun :=
  let n1 := if b = .recv then (n.step .engPoll).getD n else n
  match sg.signal with
  | some v => { n1 with sig := (n1.sig.set v).state }
  | none => n1

/-- All calls after a move of the engine to `M`: the one the moving job task was reading from sees it. -/
def RemoteEngine.shared (E : RemoteEngine) (M : Sys) : SysAct → Nat → Nat → List (Option RemoteExec)
  | .task r i b =>
    match E.sys.jobTask r i, M.jobTask r i with
    | some t, some t' =>
      if t.pc.reading then
        updCalls E.calls r i fun cs => cs.modify (cs.length - 1) (Option.map fun x => { x with net := x.net.taskMoved b t'.sig })
      else E.calls
    | _, _ => E.calls
  | _ => E.calls

/-- The engine after writes to the stream job task `i` of run `r` reads. -/
def Sys.absorbAll (M : Sys) (r i : Nat) (ws : List JobAct) : Sys := ws.foldl (fun M w => M.absorb r i (some w)) M

/-- runner_server.rs:169-185: a signal event for a step arrives at a server. -/
def RemoteEngine.signalArrives (E : RemoteEngine) (server : Id) (step : StepId) (v : Signal) : RemoteEngine :=
  match E.signals.get? (server, step) with
  | some (r, i, n) =>
    { E with calls := updCalls E.calls r i fun cs => cs.modify n (Option.map fun x => { x with remote := (x.remote.set v).state }) }
  | none => E

/-- Call `n` of job task `i` of run `r`, which is `x`, goes to state `m`. -/
def RemoteEngine.moved (E : RemoteEngine) (r i n : Nat) (x : RemoteExec) (m : RemoteRun) : RemoteEngine :=
  { E with
    sys := match (E.sys.jobTask r i).map SysTask.pc with
      | some pc => if pc.reading && n + 1 == (E.calls r i).length then E.sys.absorbAll r i (x.net.outer.writes m.outer) else E.sys
      | none => E.sys
    calls := updCalls E.calls r i fun cs => cs.set n (some { x with net := m }) }

/-- One move. -/
def RemoteEngine.step (E : RemoteEngine) : RemoteEngineAct → Option RemoteEngine
  | .sys a => if a.byRunner then none else (E.sys.step a).map fun M => { E with sys := M, calls := E.shared M a }
  -- client.rs:46-61
  | .dispatched r i server =>
    match (E.sys.jobTask r i).map SysTask.pc with
    | some (.calling st _ _) =>
      (E.sys.step (.task r i .accept)).map fun M =>
        { E with sys := M, calls := updCalls E.calls r i fun cs => cs ++ [some { server := server, command := st.toCommand }] }
    | _ => none
  -- client.rs:39-44
  | .noRunner r i =>
    match (E.sys.jobTask r i).map SysTask.pc with
    | some (.calling _ _ _) =>
      ((E.sys.absorbAll r i [.push (Log.ofError "No runner available"), .endStream (.failed 1)]).step (.task r i .accept)).map fun M =>
        { E with sys := M, calls := updCalls E.calls r i fun cs => cs ++ [none] }
    | _ => none
  | .net r i n a =>
    match (E.calls r i)[n]? with
    | some (some x) =>
      if a.byStack then none
      else (x.net.step a).map fun m =>
        let E1 := E.moved r i n x m
        match a with
        -- runner_server.rs:88-91
        | .rpcOk | .rpcErr _ true => { E1 with signals := E1.signals.insert (x.server, x.command.id) (r, i, n) }
        -- client.rs:291-294
        | .sigOk => match x.net.cli with
          | .signalling v => E1.signalArrives x.server x.command.id v
          | _ => E1
        | _ => E1
    | _ => none
  -- client.rs:294-296
  | .signalFailed r i n arrived =>
    match (E.calls r i)[n]? with
    | some (some x) =>
      (x.net.step .sigErr).map fun m =>
        let E1 := E.moved r i n x m
        match arrived, x.net.cli with
        | true, .signalling v => E1.signalArrives x.server x.command.id v
        | _, _ => E1
    | _ => none
  -- runner_server.rs:123-134; every completed step is announced to every server (client.rs:74-82, 194-201)
  | .stepCompleted r server res =>
    match E.sys.runs[r]? with
    | some ρ =>
      if ρ.trace.any (fun e => e.2 = .stepCompleted res) then some { E with signals := E.signals.erase (server, res.id) } else none
    | none => none

/-- A new engine with a new client. -/
def RemoteEngine.initial : RemoteEngine := {}

end AstroRun
