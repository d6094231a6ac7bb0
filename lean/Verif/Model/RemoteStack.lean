import Verif.Model.JobMachine
import Verif.Model.Remote
import Verif.Model.LocalStack

/-!
# A job of an engine whose runner is the remote runner

`AstroRunRemoteRunnerClient` (crates/remote-runner/src/client.rs) is the engine's `Runner`: the job machine (`JobM`) calls
`Runner::run`, which spawns a task per step and returns a stream; each such task talks to a server (`RemoteRun`).  Engine and
client task share the step's signal, which is cloned into the context (crates/astro-run/src/execution_context/mod.rs:56-66), and the state
of the stream.  Simplification: each side keeps its own copy of the two; a move that writes one of them writes both copies, and
a move of the engine that reads the stream reads both.  Which server a step is sent to is arbitrary (see `RemoteClient.run` for the choice).
-/

namespace AstroRun

/-- One call of `Runner::run` of the client: client.rs:30-62. -/
structure RemoteExec where
  /-- the runner the step is sent to -/
  server : Id
  /-- the command of the context -/
  command : Command
  /-- client task, transport and server task -/
  net : RemoteRun := {}
  /-- the signal of the context the server's runner got: a fresh one, the field is not serialised
  (crates/astro-run/src/types/context.rs:20-21) -/
  remote : SigState := {}
  deriving DecidableEq, Repr

/-- The job, and all calls made for it, in order. -/
structure RemoteStack where
  eng : JobM
  execs : List RemoteExec := []
  /-- the call whose stream the engine got last; none if there was no runner for the step -/
  current : Option Nat := none
  /-- the `signals` maps of all servers (runner_server.rs:18), as one map from server and step: the call whose signal is held -/
  signals : AMap (Id × StepId) Nat := []
  deriving DecidableEq, Repr

/-- Moves. -/
inductive RemoteStackAct
  /-- a move of the engine, the clock or an API user -/
  | eng (a : JobAct)
  /-- `Runner::run` of the client returns, having spawned a task that uses this server -/
  | dispatched (server : Id)
  /-- the same, but the scheduler found no runner -/
  | noRunner
  /-- a move in call `i`, of the client's task, the network, the server's task or the runner on the server -/
  | net (i : Nat) (a : RemoteAct)
  /-- sending the signal fails in call `i`; it may have arrived all the same -/
  | signalFailed (i : Nat) (arrived : Bool)
  /-- the notification of a completed step arrives at a server -/
  | stepCompleted (server : Id) (r : StepRunResult)
  deriving DecidableEq, Repr

/-- Moves of `RemoteRun` that are not `net` moves of the stack: those of the engine, and `sigErr` (see `signalFailed`). -/
def RemoteAct.byStack : RemoteAct → Bool
  | .setSignal _ | .engPoll | .sigErr => true
  | _ => false

/-- The call the engine reads from, after a move of the engine: the poll of the stream and the signal. -/
def RemoteRun.engineMoved (n : RemoteRun) (a : JobAct) (m : JobM) : RemoteRun :=
  let n1 := if a = .recv then (n.step .engPoll).getD n else n
  match m.sig.signal with
  | some v => { n1 with sig := (n1.sig.set v).state }
  | none => n1

/-- What was written to a stream between two states of it. -/
def StreamState.writes (o o' : StreamState) : List JobAct :=
  (o'.logs.drop o.logs.length).map .push ++ (if o.result = none then (o'.result.map JobAct.endStream).toList else [])

/-- The engine after writes to the stream it reads. -/
def JobM.absorbAll (m : JobM) (ws : List JobAct) : JobM := ws.foldl (fun m a => (m.step a).getD m) m

/-- runner_server.rs:169-185: a signal event for a step arrives at a server. -/
def RemoteStack.signalArrives (s : RemoteStack) (server : Id) (step : StepId) (v : Signal) : RemoteStack :=
  match s.signals.get? (server, step) with
  | some j => { s with execs := s.execs.modify j fun x => { x with remote := (x.remote.set v).state } }
  | none => s

/-- Call `i`, which is `x`, goes to state `n`. -/
def RemoteStack.moved (s : RemoteStack) (i : Nat) (x : RemoteExec) (n : RemoteRun) : RemoteStack :=
  { s with
    eng := if s.eng.pc.reading && s.current == some i then s.eng.absorbAll (x.net.outer.writes n.outer) else s.eng
    execs := s.execs.set i { x with net := n } }

/-- All calls after a move of the engine to `m`. -/
def RemoteStack.engineMoved (s : RemoteStack) (a : JobAct) (m : JobM) : List RemoteExec :=
  match s.current with
  | some i => if s.eng.pc.reading then s.execs.modify i fun x => { x with net := x.net.engineMoved a m } else s.execs
  | none => s.execs

/-- One move. -/
def RemoteStack.step (s : RemoteStack) : RemoteStackAct → Option RemoteStack
  | .eng a =>
    if a.byRunner then none
    else (s.eng.step a).map fun m =>
      { s with
        eng := m
        execs := s.engineMoved a m }
  -- client.rs:46-61
  | .dispatched server =>
    match s.eng.pc with
    | .calling st _ =>
      (s.eng.step .accept).map fun m =>
        { s with
          eng := m
          execs := s.execs ++ [{ server := server, command := st.toCommand }]
          current := some s.execs.length }
    | _ => none
  -- client.rs:39-44
  | .noRunner =>
    match s.eng.pc with
    | .calling _ _ =>
      ((s.eng.absorbAll [.push (Log.ofError "No runner available"), .endStream (.failed 1)]).step .accept).map fun m =>
        { s with eng := m, current := none }
    | _ => none
  | .net i a =>
    match s.execs[i]? with
    | some x =>
      if a.byStack then none
      else (x.net.step a).map fun n =>
        let s1 := s.moved i x n
        match a with
        -- runner_server.rs:88-91
        | .rpcOk | .rpcErr _ true => { s1 with signals := s1.signals.insert (x.server, x.command.id) i }
        -- client.rs:291-294
        | .sigOk => match x.net.cli with
          | .signalling v => s1.signalArrives x.server x.command.id v
          | _ => s1
        | _ => s1
    | none => none
  -- client.rs:294-296
  | .signalFailed i arrived =>
    match s.execs[i]? with
    | some x =>
      (x.net.step .sigErr).map fun n =>
        let s1 := s.moved i x n
        match arrived, x.net.cli with
        | true, .signalling v => s1.signalArrives x.server x.command.id v
        | _, _ => s1
    | none => none
  -- runner_server.rs:123-134; every completed step is announced to every server (client.rs:74-82, 194-201)
  | .stepCompleted server r =>
    if .stepCompleted r ∈ s.eng.acc.trace then some { s with signals := s.signals.erase (server, r.id) } else none

/-- The job before it runs. -/
def RemoteStack.initial (job : Job) (now : Time) : RemoteStack := { eng := JobM.initial job now }

end AstroRun
