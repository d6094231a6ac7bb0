import Verif.Model.Stream
import Verif.Model.Signal
import Verif.Model.Scheduler
import Verif.Model.Plugin

/-!
# The remote runner: one step executed through client and server

crates/remote-runner/src/client.rs and runner_server.rs.  The transport (tonic, JSON codec) is a reliable FIFO
channel that may fail at any moment; in front of it is the server's queue of capacity 30 (runner_server.rs:84).
Simplifications: what is in flight in the transport is not bounded (C86 and C94 do not rely on that); log output is
left out.
-/

namespace AstroRun

/-- crates/protocol/src/lib.rs:22-32 (`RunResponse`); the step id, which the client ignores, is left out. -/
inductive WireItem
  | log (l : Log)
  | result (r : RunResult)
  deriving DecidableEq, Repr

/-- Where the server's task (runner_server.rs:49-72) is. -/
inductive SrvPc
  /-- the request has not arrived -/
  | idle
  /-- `runner.run(ctx).await` (50) -/
  | starting
  /-- `stream.next().await` (52) -/
  | reading
  /-- `sender.send(x).await` (53 for a log, 62-66 for the result) -/
  | sending (x : WireItem)
  /-- the runner's stream has ended; before 58 -/
  | ended
  /-- the task is over; its sender is dropped -/
  | dead
  deriving DecidableEq, Repr

/-- Where the client's task (client.rs:50-59 and 237-301) is. -/
inductive CliPc
  /-- `client.run(context).await` (240) -/
  | calling
  /-- in `select!` (253) -/
  | streaming
  /-- `send_event(Signal ..).await` (291-294) -/
  | signalling (v : Signal)
  /-- `Self::run` has returned; before 55 -/
  | checking
  | finished
  deriving DecidableEq, Repr

/-- One remote execution of a step: runner, server task, channel, client task, and the engine reading the
client's stream.  `serverGot`, `serverSent`, `clientGot`, `sigSent` and `engineGot` record what happened. -/
structure RemoteRun where
  /-- the runner's stream on the server -/
  inner : StreamState := {}
  srv : SrvPc := .idle
  /-- the server's `mpsc` channel -/
  queue : List WireItem := []
  /-- the receiving end of the queue is gone: `send` fails from now on -/
  dropped : Bool := false
  /-- in flight to the client -/
  chan : List WireItem := []
  cli : CliPc := .calling
  /-- the stream handed to the engine -/
  outer : StreamState := {}
  /-- the engine's signal, `context.signal` -/
  sig : SigState := {}
  /-- the engine has seen the end of the stream -/
  engineDone : Bool := false
  serverGot : List Log := []
  serverSent : List WireItem := []
  clientGot : List WireItem := []
  sigSent : List Signal := []
  engineGot : List Log := []
  deriving DecidableEq, Repr

/-- `sender.error(m); sender.end(RunResult::Failed { exit_code: 1 })`: client.rs:244-245, 277-278, 56-57,
42-43.  The task is the only user of this sender. -/
def StreamState.fail (s : StreamState) (m : String) : StreamState := ((s.error m).1.endSeq (.failed 1)).1

/-- client.rs:261-272: one message of the response stream. -/
def StreamState.accept (s : StreamState) : WireItem → StreamState
  | .log l => if l.isError then (s.error l.message).1 else (s.log l.message).1
  | .result r => (s.endSeq r).1

/-- runner_server.rs:84, `mpsc::channel(30)` -/
def queueCapacity : Nat := 30

/-- runner_server.rs:52-71: where the task is after sending `x`. -/
def SrvPc.next : WireItem → SrvPc
  | .log _ => .reading
  | .result _ => .dead

/-- Moves. -/
inductive RemoteAct
  | rpcOk
  /-- the call fails; the request may have arrived at the server all the same -/
  | rpcErr (e : String) (arrived : Bool)
  | srvRunOk
  | srvRunErr
  /-- the runner writes a log, or ends its stream -/
  | runnerPush (l : Log)
  | runnerEnd (r : RunResult)
  | srvPoll
  | srvResult
  /-- the message is put into the queue, which has room -/
  | srvSend
  /-- the receiver is gone: the message is discarded and the error logged -/
  | srvSendErr
  /-- the receiver of the queue is dropped, with what is in it: the client went away, or the connection broke -/
  | rxDrop
  /-- the transport takes a message from the queue -/
  | xmit
  /-- the server's task dies (a panic, or the process) -/
  | srvCrash
  | cliNext
  | netErr (e : String)
  /-- the engine cancels or times out the step -/
  | setSignal (v : Signal)
  | cliSignal
  | sigOk
  | sigErr
  | check
  | engPoll
  deriving DecidableEq, Repr

/-- One move. -/
def RemoteRun.step (m : RemoteRun) : RemoteAct → Option RemoteRun
  -- client.rs:240, 250 and runner_server.rs:80-98
  | .rpcOk => if m.cli = .calling ∧ m.srv = .idle then some { m with cli := .streaming, srv := .starting } else none
  -- client.rs:240-248
  | .rpcErr e arrived =>
    if m.cli = .calling then
      some { m with
        cli := .checking
        srv := if arrived then .starting else .dead
        outer := m.outer.fail ("Failed to run: " ++ e) }
    else none
  -- runner_server.rs:50
  | .srvRunOk => if m.srv = .starting then some { m with srv := .reading } else none
  | .srvRunErr => if m.srv = .starting then some { m with srv := .dead } else none
  | .runnerPush l => if m.srv = .idle then none else some { m with inner := (m.inner.push l).1 }
  | .runnerEnd r => if m.srv = .idle then none else some { m with inner := (m.inner.endSeq r).1 }
  -- runner_server.rs:52-56
  | .srvPoll =>
    if m.srv = .reading then
      match m.inner.poll 0 with
      | (st, .item l) => some { m with
          inner := st
          serverGot := m.serverGot ++ [l]
          srv := .sending (.log l) }
      | (st, .eos) => some { m with inner := st, srv := .ended }
      | (_, .pending) => none
    else none
  -- runner_server.rs:58-66
  | .srvResult =>
    if m.srv = .ended then
      match m.inner.result with
      | some r => some { m with srv := .sending (.result r) }
      | none => some { m with srv := .dead }
    else none
  -- runner_server.rs:53, 62-66
  | .srvSend => match m.srv with
    | .sending x =>
      if m.dropped = false ∧ m.queue.length < queueCapacity then
        some { m with srv := .next x, queue := m.queue ++ [x], serverSent := m.serverSent ++ [x] }
      else none
    | _ => none
  -- runner_server.rs:53-55, 67-69
  | .srvSendErr => match m.srv with
    | .sending x => if m.dropped then some { m with srv := .next x } else none
    | _ => none
  -- runner_server.rs:97: the response body is dropped.  The task sees it only while it is alive; for a dead one `netErr`
  -- covers what the client sees
  | .rxDrop => if m.srv = .idle ∨ m.srv = .dead then none else some { m with dropped := true, queue := [] }
  | .xmit => match m.queue with
    | x :: rest => some { m with queue := rest, chan := m.chan ++ [x] }
    | [] => none
  | .srvCrash => if m.srv = .idle then none else some { m with srv := .dead }
  -- client.rs:254-273; the stream ends when the server's sender is gone and everything sent was read; if the connection
  -- broke, it does not end but fails
  | .cliNext =>
    if m.cli = .streaming then
      match m.chan with
      | x :: rest => some { m with
          chan := rest
          outer := m.outer.accept x
          clientGot := m.clientGot ++ [x] }
      | [] => if m.srv = .dead ∧ m.queue = [] ∧ m.dropped = false then some { m with cli := .checking } else none
    else none
  -- client.rs:274-281
  | .netErr e =>
    if m.cli = .streaming then
      some { m with
        cli := .checking
        outer := m.outer.fail ("Failed to run: " ++ e) }
    else none
  | .setSignal v => some { m with sig := (m.sig.set v).state }
  -- client.rs:284-289
  | .cliSignal =>
    if m.cli = .streaming then
      match m.sig.poll 0 with
      | (sg, some v) => some { m with sig := sg, cli := .signalling v }
      | (_, none) => none
    else none
  -- client.rs:291-296
  | .sigOk => match m.cli with
    | .signalling v => some { m with cli := .streaming, sigSent := m.sigSent ++ [v] }
    | _ => none
  | .sigErr => match m.cli with
    | .signalling _ => some { m with cli := .checking }
    | _ => none
  -- client.rs:55-58
  | .check =>
    if m.cli = .checking then
      if m.outer.isEnded then some { m with cli := .finished }
      else some { m with cli := .finished, outer := m.outer.fail "Failed to run" }
    else none
  -- the engine, crates/astro-run/src/workflow/step.rs (see `StreamState.poll`)
  | .engPoll =>
    if m.engineDone then none
    else match m.outer.poll 1 with
      | (st, .item l) => some { m with outer := st, engineGot := m.engineGot ++ [l] }
      | (st, .eos) => some { m with outer := st, engineDone := true }
      | (_, .pending) => none

/-! ## Dispatch, registration, hooks -/

/-- crates/remote-runner/src/client.rs:14-26: the connected runners (by id) and the scheduler; the events
broadcast so far are `emitted`. -/
structure RemoteClient where
  clients : AMap Id RunnerMeta := []
  sched : SchedState := {}
  emitted : List Event := []
  deriving DecidableEq, Repr

/-- What `run` returns. -/
inductive DispatchOut
  /-- nobody can run the step: the stream returned -/
  | refused (s : StreamState)
  /-- a task was spawned that runs the step on this runner -/
  | spawned (r : RunnerMeta)
  /-- `clients.get(&runner.id).unwrap()` panicked -/
  | panicked
  deriving DecidableEq, Repr

/-- crates/remote-runner/src/client.rs:30-62 with the default scheduler. -/
def RemoteClient.run (cl : RemoteClient) (c : Command) : RemoteClient × DispatchOut :=
  match cl.sched.schedule (cl.clients.map Prod.snd) c with
  | (s, none) => ({ cl with sched := s }, .refused (({} : StreamState).fail "No runner available"))
  | (s, some r) =>
    match cl.clients.get? r.id with
    | some cm => ({ cl with sched := s }, .spawned cm)
    | none => ({ cl with sched := s }, .panicked)

/-- crates/remote-runner/src/client.rs:64-142: every notification is only put on the broadcast channel. -/
def RemoteClient.onEvent (cl : RemoteClient) (e : Event) : RemoteClient :=
  { cl with emitted := cl.emitted ++ [e] }

/-- A call of the engine. -/
inductive RemoteOp
  | run (c : Command)
  | event (e : Event)
  deriving DecidableEq, Repr

/-- One call. -/
def RemoteClient.op (cl : RemoteClient) : RemoteOp → RemoteClient
  | .run c => (cl.run c).1
  | .event e => cl.onEvent e

/-- A history of calls. -/
def RemoteClient.ops (cl : RemoteClient) (os : List RemoteOp) : RemoteClient := os.foldl RemoteClient.op cl

/-- crates/remote-runner/src/client.rs:207-235 (`connect`): `answer` is what the server says, or the transport
error of connecting or asking; `version` is `crate::VERSION`. -/
def connect (version : String) (answer : Except Error RunnerMeta) : Except Error (Id × RunnerMeta) :=
  match answer with
  | .error e => .error e
  | .ok md =>
    if md.version ≠ version then .error (.internalRuntimeError ("Incompatible version: " ++ md.version))
    else .ok (md.id, md)

/-- crates/remote-runner/src/client.rs:176-192: the loop over the urls. -/
def connectAll (version : String) (clients : AMap Id RunnerMeta) :
    List (Except Error RunnerMeta) → AMap Id RunnerMeta
  | [] => clients
  | a :: as =>
    match connect version a with
    | .ok (id, md) =>
      if clients.contains id then connectAll version clients as
      else connectAll version (clients.insert id md) as
    | .error _ => connectAll version clients as

/-- The before-step hook of one remote runner as seen over the wire. -/
abbrev RemoteHook := Command → Except Error Command

/-- crates/remote-runner/src/runner_server.rs:208-230.  Simplification: the error text is not modelled. -/
def serverBeforeRunStep (plugins : List Observer) (runner : Observer) : RemoteHook := fun c =>
  match runner.onBeforeRunStep (driverBeforeRunStep plugins c.toStep) with
  | .ok s => .ok s.toCommand
  | .error e => .error e

/-- crates/remote-runner/src/client.rs:149-159 -/
def remoteHookLoop : List RemoteHook → Command → Except Error Command
  | [], c => .ok c
  | h :: hs, c => match h c with
    | .ok c' => remoteHookLoop hs c'
    | .error e => .error e

/-- crates/remote-runner/src/client.rs:144-162 -/
def remoteBeforeRunStep (hooks : List RemoteHook) (s : Step) : Except Error Step :=
  match remoteHookLoop hooks s.toCommand with
  | .ok c => .ok c.toStep
  | .error e => .error e

/-! ## The forwarding loop -/

/-- `broadcast::channel(30)` (client.rs:327): tokio rounds the capacity up to a power of two. -/
def broadcastCapacity : Nat := 32

/-- Where `start` (client.rs:170-205) is. -/
inductive FwdPc (ε : Type)
  /-- connecting to the urls (176-192); already subscribed (174) -/
  | connecting
  /-- `receiver.recv().await` (194) -/
  | waiting
  /-- sending `e` to the remaining clients (196-200) -/
  | sending (e : ε) (rest : List Id)
  /-- the loop has ended: `start` has returned -/
  | stopped
  deriving DecidableEq, Repr

/-- The broadcast channel with its one receiver, and what the runners got. -/
structure Fwd (ε : Type) where
  clients : List Id := []
  /-- everything emitted since the subscription -/
  emitted : List ε := []
  /-- position of the receiver -/
  next : Nat := 0
  pc : FwdPc ε := .connecting
  /-- (runner, event) in the order the runners got them -/
  delivered : List (Id × ε) := []
  /-- (runner, event) for which the request failed -/
  failed : List (Id × ε) := []
  deriving DecidableEq, Repr

/-- Moves. -/
inductive FwdAct (ε : Type)
  /-- some hook emits an event -/
  | emit (e : ε)
  | connected (cs : List Id)
  | recv
  | sendOk
  | sendErr
  deriving DecidableEq, Repr

/-- One move.  `recv` fails with `Lagged` when the next event has been overwritten. -/
def Fwd.step {ε : Type} (m : Fwd ε) : FwdAct ε → Option (Fwd ε)
  | .emit e => some { m with emitted := m.emitted ++ [e] }
  | .connected cs => match m.pc with
    | .connecting => some { m with clients := cs, pc := .waiting }
    | _ => none
  | .recv => match m.pc with
    | .waiting =>
      if m.emitted.length - m.next > broadcastCapacity then some { m with pc := .stopped }
      else match m.emitted[m.next]? with
        | some e => some { m with next := m.next + 1, pc := .sending e m.clients }
        | none => none
    | .sending _ [] =>
      if m.emitted.length - m.next > broadcastCapacity then some { m with pc := .stopped }
      else match m.emitted[m.next]? with
        | some e => some { m with next := m.next + 1, pc := .sending e m.clients }
        | none => none
    | _ => none
  | .sendOk => match m.pc with
    | .sending e (c :: cs) => some { m with pc := .sending e cs, delivered := m.delivered ++ [(c, e)] }
    | _ => none
  | .sendErr => match m.pc with
    | .sending e (c :: cs) => some { m with pc := .sending e cs, failed := m.failed ++ [(c, e)] }
    | _ => none

/-! ## Signals on the servers -/

/-- A remote run, as far as signals are concerned. -/
structure SigRun where
  step : StepId
  server : Id
  /-- the engine's signal of this run -/
  engine : SigState := {}
  /-- the signal of the context the server's runner got: a fresh one, the field is not serialised
  (crates/astro-run/src/types/context.rs:20-21) -/
  remote : SigState := {}
  deriving DecidableEq, Repr

/-- All runs (numbered in order) and, for each server, its `signals` map (runner_server.rs:18): which run's signal
it holds for a step. -/
structure SigNet where
  runs : List SigRun := []
  signals : AMap Id (AMap StepId Nat) := []
  deriving DecidableEq, Repr

/-- The `signals` map of a server. -/
def SigNet.at (w : SigNet) (server : Id) : AMap StepId Nat := (w.signals.get? server).getD []

/-- runner_server.rs:169-185: a signal event for `step` arrives at `server`. -/
def SigNet.deliver (w : SigNet) (server : Id) (step : StepId) (v : Signal) : SigNet :=
  match (w.at server).get? step with
  | some i => { w with runs := w.runs.modify i fun r => { r with remote := (r.remote.set v).state } }
  | none => w

/-- Moves. -/
inductive SigAct
  /-- the client starts a run; the server registers its signal (runner_server.rs:88-91) -/
  | start (step : StepId) (server : Id)
  /-- the engine sets the signal of run `i` -/
  | set (i : Nat) (v : Signal)
  /-- the client task of run `i` receives its signal and sends it (client.rs:284-295) -/
  | forward (i : Nat)
  /-- the same, but the request fails -/
  | forwardErr (i : Nat)
  /-- `StepCompleted` arrives at a server (runner_server.rs:123-134) -/
  | completed (step : StepId) (server : Id)
  deriving DecidableEq, Repr

/-- One move. -/
def SigNet.step (w : SigNet) : SigAct → Option SigNet
  | .start st sv => some
    { runs := w.runs ++ [{ step := st, server := sv }]
      signals := w.signals.insert sv ((w.at sv).insert st w.runs.length) }
  | .set i v => if i < w.runs.length then
      some { w with runs := w.runs.modify i fun r => { r with engine := (r.engine.set v).state } }
    else none
  | .forward i => match w.runs[i]? with
    | some r => match r.engine.poll 0 with
      | (sg, some v) =>
        some (SigNet.deliver { w with runs := w.runs.modify i fun r => { r with engine := sg } } r.server r.step v)
      | (_, none) => none
    | none => none
  | .forwardErr i => match w.runs[i]? with
    | some r => match r.engine.poll 0 with
      | (sg, some _) => some { w with runs := w.runs.modify i fun r => { r with engine := sg } }
      | (_, none) => none
    | none => none
  | .completed st sv => some { w with signals := w.signals.insert sv ((w.at sv).erase st) }

end AstroRun
