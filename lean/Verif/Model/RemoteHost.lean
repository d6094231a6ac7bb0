import Verif.Model.RemoteStack

/-!
# A job of an engine on remote runners whose servers run their steps with the local runner

The usual deployment: the engine uses `AstroRunRemoteRunnerClient`; on the other side an `AstroRunRemoteRunnerServer`
(crates/remote-runner/src/runner_server.rs) has an `AstroRunner` (crates/runner/src/astro_runner.rs) as its runner.
`RemoteStack` leaves the runner on the server open (it writes and ends its stream as it likes); here it is `LocalRun`.
Simplification: the stream between server and local runner, and the signal of the context, are held twice (in `RemoteExec` and
in `LocalRun`); a move that writes one of them writes both copies.
-/

namespace AstroRun

/-- The job with its calls, and the local runners behind the servers. -/
structure RemoteHost where
  /-- the runner of each server (astro_runner.rs:17-22); its `event` is not used -/
  servers : Id → LocalSetup
  /-- the event of the execution context, which is sent along (crates/astro-run/src/types/context.rs:17-25) -/
  event : Option TriggerEvent := none
  net : RemoteStack
  mems : Id → RunnerMem := fun _ => {}
  /-- the task the local runner has spawned for a call -/
  tasks : Nat → Option (RunPlan × LocalRun) := fun _ => none

/-- Moves. -/
inductive HostAct
  /-- a move of the engine, the clients, the network or the servers -/
  | stk (a : RemoteStackAct)
  /-- `AstroRunner::run`, called by the server for call `i`, returns: `past` and `envs` as in `startRun` -/
  | spawned (i : Nat) (past : Nat → List RunnerContext) (envs : List (String × String))
  /-- a move of the local runner's task for call `i`, or of its process -/
  | loc (i : Nat) (a : LocalAct)

/-- Moves of a call that are the local runner's.  `AstroRunner::run` does not fail (astro_runner.rs:39-70). -/
def RemoteAct.byHost : RemoteAct → Bool
  | .srvRunOk | .srvRunErr | .runnerPush _ | .runnerEnd _ => true
  | _ => false

/-- see `RemoteAct.byHost` -/
def RemoteStackAct.byHost : RemoteStackAct → Bool
  | .net _ a => a.byHost
  | _ => false

/-- The signal of the context each server's runner got, as its task sees it: runner_server.rs:86-91, 169-185. -/
def RemoteHost.share (s : RemoteHost) : RemoteHost :=
  { s with tasks := fun i => match s.tasks i, s.net.execs[i]? with
      | some (p, l), some x => some (p, l.shareSignal x.remote)
      | t, _ => t }

/-- The call after its runner has written something to the stream, or ended it. -/
def RemoteStack.runnerWrote (s : RemoteStack) (i : Nat) : Option JobAct → RemoteStack
  | some (.push x) => (s.step (.net i (.runnerPush x))).getD s
  | some (.endStream r) => (s.step (.net i (.runnerEnd r))).getD s
  | _ => s

/-- The runner of the server of a call, and the event. -/
def RemoteHost.setupOf (s : RemoteHost) (x : RemoteExec) : LocalSetup := { s.servers x.server with event := s.event }

/-- One move. -/
def RemoteHost.step (s : RemoteHost) : HostAct → Option RemoteHost
  | .stk a => if a.byHost then none else (s.net.step a).map fun n => ({ s with net := n } : RemoteHost).share
  -- runner_server.rs:50, astro_runner.rs:39-70
  | .spawned i past envs =>
    match s.net.execs[i]? with
    | some x =>
      let c := s.setupOf x
      let r := startRun c.os c.arch c.workingDirectory c.plugins past (s.mems x.server) { command := x.command, event := c.event } envs
      (s.net.step (.net i .srvRunOk)).map fun n =>
        ({ s with
            net := n
            mems := fun id => if id = x.server then r.1 else s.mems id
            tasks := fun j => if j = i then some (r.2, LocalRun.initial r.2 c.plugins.length) else s.tasks j } : RemoteHost).share
    | none => none
  | .loc i a =>
    match s.tasks i, a with
    | _, .setSignal _ => none
    | some (p, l), a =>
      (l.step a).map fun l' =>
        { s with
          net := s.net.runnerWrote i (l.wrote l')
          tasks := fun j => if j = i then some (p, l') else s.tasks j }
    | none, _ => none

/-- The job before it runs. -/
def RemoteHost.initial (servers : Id → LocalSetup) (event : Option TriggerEvent) (job : Job) (now : Time) : RemoteHost :=
  { servers := servers, event := event, net := RemoteStack.initial job now }

end AstroRun
