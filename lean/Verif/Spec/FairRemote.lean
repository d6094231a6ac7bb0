import Verif.Spec.Fair
import Verif.Spec.RemoteEngine

/-! # Specification vocabulary: endless executions of an engine on the remote runner -/

namespace AstroRun.Spec
open AstroRun

/-- Endless executions of an engine with a remote runner: it is in state `f n` after `n` moves, `a n` is its next move. -/
structure RemoteEndless (f : Nat → RemoteEngine) (a : Nat → RemoteEngineAct) : Prop where
  start : f 0 = RemoteEngine.initial
  moves : ∀ n, (f n).step (a n) = some (f (n + 1))

/-- The moves of the main task of run `r`. -/
def remoteMainOf (r : Nat) (y : RemoteEngineAct) : Prop := ∃ b, y = .sys (.main r b)

/-- The moves of job task `i` of run `r`, but for the branches of its `select!`; with the client's answer to `run`. -/
def remoteJobOf (r i : Nat) (y : RemoteEngineAct) : Prop :=
  (∃ x, y = .sys x ∧ workOf r i x) ∨ (∃ server, y = .dispatched r i server) ∨ y = .noRunner r i

/-- The branch of the `select!` of job task `i` of run `r` that reads the step's stream. -/
def remoteRecvOf (r i : Nat) (y : RemoteEngineAct) : Prop := y = .sys (.task r i .recv)

/-- The branch of the `select!` of job task `i` of run `r` that passes the job's signal on to the step. -/
def remoteSignalOf (r i : Nat) (y : RemoteEngineAct) : Prop := y = .sys (.task r i .jobSignal)

/-- The moves that carry call `n` of job task `i` of run `r` on: of the client's task, the transport and the server's task
(failures are nobody's moves: they may happen or not). -/
def callOf (r i n : Nat) (y : RemoteEngineAct) : Prop := ∃ b, y = .net r i n b ∧ isPipeline b = true

/-- The moves of the client's task of call `n` of job task `i` of run `r`, but for reading messages: its request is answered, it takes a
signal and passes it on, it ends the stream. -/
def clientOf (r i n : Nat) (y : RemoteEngineAct) : Prop :=
  ∃ b, y = .net r i n b ∧ (b = .rpcOk ∨ b = .cliSignal ∨ b = .sigOk ∨ b = .check)

/-- The runners on the servers do their duty for run `r`: each call is over on the server's side at some time (or for the client),
and its runner writes no further lines then. -/
def ServersEnd (f : Nat → RemoteEngine) (a : Nat → RemoteEngineAct) (r : Nat) : Prop :=
  ∀ (i n : Nat), Finally fun k => (∀ x, callAt (f k) r i n = some x → ServerOver x (callMoves r i n (firstMoves a k))) ∧
    ∀ l, a k ≠ .net r i n (.runnerPush l)

/-- Broken connections are noticed: no client's task waits forever for the messages of a server that cannot send any more. -/
def BreaksNoticed (f : Nat → RemoteEngine) (r : Nat) : Prop :=
  ∀ (i n : Nat), ¬ Finally fun k => ∃ x, callAt (f k) r i n = some x ∧ x.net.dropped = true ∧ x.net.cli = .streaming

/-- Moves of the engine's, the client's, the transport's, the servers' and the clock's own: not those of users, who start workflows and
cancel jobs, and not failures, except that the client notices that a connection is broken already.  (The runners on the servers end
their streams, and write no more lines.) -/
def RemoteGoesOn (E : RemoteEngine) : RemoteEngineAct → Prop
  | .sys (.start _) | .sys (.cancel _) | .noRunner _ _ | .signalFailed _ _ _ _ => False
  | .net r i n (.netErr _) => ∃ x, callAt E r i n = some x ∧ x.net.dropped = true ∧ x.net.cli = .streaming
  | .net _ _ _ (.rpcErr ..) | .net _ _ _ .srvRunErr | .net _ _ _ .srvCrash | .net _ _ _ .rxDrop | .net _ _ _ .sigErr
  | .net _ _ _ (.runnerPush _) => False
  | _ => True

/-- The runner on the server of call `n` of job task `i` of run `r` writes a line. -/
def serverWritesOf (r i n : Nat) (y : RemoteEngineAct) : Prop := ∃ l, y = .net r i n (.runnerPush l)

/-- Moves in which no runner on a server ends its stream, nothing fails, and users neither start workflows nor cancel jobs. -/
def serversNeverEnd : RemoteEngineAct → Bool
  | .sys (.start _) | .sys (.cancel _) | .noRunner _ _ | .signalFailed _ _ _ _ => false
  | .net _ _ _ (.netErr _) | .net _ _ _ (.rpcErr ..) | .net _ _ _ .srvRunErr | .net _ _ _ .srvCrash | .net _ _ _ .rxDrop | .net _ _ _ .sigErr
  | .net _ _ _ (.runnerEnd _) => false
  | _ => true

/-- The timer of the step of job task `i` of run `r`. -/
def remoteTimerOf (r i : Nat) (y : RemoteEngineAct) : Prop := y = .sys (.task r i .timer)

/-- Time passes: every point of time comes. -/
def RemoteTimePasses (f : Nat → RemoteEngine) : Prop := ∀ T, ∃ n, T ≤ (f n).sys.now

/-- Every runner on a server writes finitely many lines for run `r`: it ends, or falls silent. -/
def ServersFallSilent (a : Nat → RemoteEngineAct) (r : Nat) : Prop :=
  ∀ (i n : Nat), Finally fun k => ∀ l, a k ≠ .net r i n (.runnerPush l)

/-- The runner on the server of call `n` of job task `i` of run `r` has got a signal. -/
def ServerTold (E : RemoteEngine) (r i n : Nat) : Prop := ∃ x v, callAt E r i n = some x ∧ x.remote.signal = some v

/-- The runners on the servers obey signals: a call whose runner gets one is over on the server's side at some time (or for the client). -/
def ServersObey (f : Nat → RemoteEngine) (a : Nat → RemoteEngineAct) (r : Nat) : Prop :=
  ∀ (i n k : Nat), ServerTold (f k) r i n →
    Finally fun m => ∀ x, callAt (f m) r i n = some x → ServerOver x (callMoves r i n (firstMoves a m))

/-- The steps of each job have ids of their own. -/
def DistinctSteps (w : Workflow) : Prop := ∀ k j, (k, j) ∈ w.jobs → (j.steps.map (·.id)).Nodup

/-- The before-step hooks leave the ids of steps alone. -/
def RemoteHooksKeepIds (acts : List RemoteEngineAct) : Prop :=
  ∀ pre r i b s post, acts = pre ++ RemoteEngineAct.sys (.task r i (.nextStep b s)) :: post → ∀ E, RemoteEngineReach pre E →
    ∀ t st rest, taskAt E.sys r i = some t → t.rest = st :: rest → s.id = st.id

/-- Moves as in `RemoteGoesOn`, in which runners on servers write nothing and end their streams only if they have got a signal. -/
def ServersOnlyObey (E : RemoteEngine) (y : RemoteEngineAct) : Prop :=
  RemoteGoesOn E y ∧ ∀ r i n z, y = .net r i n (.runnerEnd z) → ServerTold E r i n

end AstroRun.Spec
