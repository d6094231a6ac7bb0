import Verif.Model.Remote

/-!
# The loop of the remote client, poll by poll

The loop of `AstroRunRemoteRunnerClient::run` (crates/remote-runner/src/client.rs:252-299) at the level of futures and
wakers, like `Verif.Model.SelectLoop` for the engine's loop: `select!` polls its two branches in an order chosen at random
each time, other threads can get in between two polls; if both are pending the task sleeps until a waker it left behind is
used.  Everything around the loop is `RemoteRun`'s.  (`RemoteRun` has one move for a whole iteration instead.)

tonic's response stream is modelled by when it is ready: a message has arrived, the server has ended the stream and all
was read, or the connection broke; and by its promise to use the waker of a pending poll when it gets ready.  The client's
task has number `0`.
-/

namespace AstroRun

/-- The branches of `select!` (client.rs:254 and 284). -/
inductive CliBranch
  | reply | signal
  deriving DecidableEq, Repr

/-- Where the client's task is. -/
inductive CliSel
  /-- at the top of the loop (252) -/
  | top
  /-- polling `select!` (253): the branches not yet polled this time -/
  | polling (todo : List CliBranch)
  /-- the poll returned `Pending` -/
  | pending
  /-- not in `select!`: sending a signal (291-295), or after the loop (301, 55-58): see `RemoteRun.cli` -/
  | outside
  deriving DecidableEq, Repr

/-- The loop and everything around it. -/
structure CliLoop where
  run : RemoteRun
  pc : CliSel := .top
  /-- a waker of the task was used since it was last taken from the run queue -/
  woken : Bool := false
  /-- the response stream holds a waker of the task -/
  waits : Bool := false
  /-- the connection broke: the next poll of the stream returns this error -/
  broken : Option String := none
  deriving DecidableEq, Repr

/-- A poll of the response stream is ready. -/
def CliLoop.readable (m : CliLoop) : Bool :=
  m.broken.isSome || !m.run.chan.isEmpty || (m.run.srv = .dead && m.run.queue.isEmpty && !m.run.dropped)

/-- The response stream keeps its promise. -/
def CliLoop.notify (m : CliLoop) : CliLoop :=
  if m.waits && m.readable then { m with waits := false, woken := true } else m

/-- Moves of `RemoteRun` that are not the client's. -/
def RemoteAct.outside : RemoteAct → Bool
  | .srvRunOk | .srvRunErr | .runnerPush _ | .runnerEnd _ | .srvPoll | .srvResult | .srvSend | .srvSendErr | .rxDrop | .xmit
  | .srvCrash | .setSignal _ | .engPoll => true
  | _ => false

/-- Moves. -/
inductive CliAct
  /-- evaluate `select!`, the branches being polled in this order -/
  | select (order : List CliBranch)
  /-- poll the next branch -/
  | poll
  /-- all branches were pending: return to the executor -/
  | park
  /-- executor: poll the woken task again, the branches in this order -/
  | repoll (order : List CliBranch)
  /-- `send_event` returns (291-295) -/
  | sent (ok : Bool)
  /-- after the loop (55-58) -/
  | check
  /-- something else happens -/
  | env (a : RemoteAct)
  /-- the connection breaks -/
  | break_ (e : String)
  /-- some other waker of the task is used -/
  | wake
  deriving DecidableEq, Repr

/-- `select!` polls both branches, each once. -/
def bothBranches (order : List CliBranch) : Bool := order = [.reply, .signal] || order = [.signal, .reply]

/-- The task after a move `r` of `RemoteRun` that ends an iteration. -/
def CliLoop.after (m : CliLoop) (r : RemoteRun) : CliLoop :=
  { m with run := r, pc := if r.cli = .streaming then .top else .outside }

/-- client.rs:253-297: poll branch `b`, with `todo` still to be polled. -/
def CliLoop.pollBranch (m : CliLoop) (todo : List CliBranch) : CliBranch → Option CliLoop
  | .reply =>
    match m.broken with
    | some e => (m.run.step (.netErr e)).map m.after
    | none =>
      match m.run.step .cliNext with
      | some r => some (m.after r)
      | none => some { m with pc := .polling todo, waits := true }
  | .signal =>
    match m.run.step .cliSignal with
    | some r => some (m.after r)
    | none => some { m with run := { m.run with sig := (m.run.sig.poll 0).1 }, pc := .polling todo }

/-- crates/astro-run/src/signals/signal.rs:49-51 and 65-67: setting the step's signal wakes the client's task. -/
def RemoteAct.wakesClient (sig : SigState) : RemoteAct → Bool
  | .setSignal v => (sig.set v).woken == some 0
  | _ => false

/-- After move `a` of the surroundings, which led to `r`. -/
def CliLoop.surround (m : CliLoop) (a : RemoteAct) (r : RemoteRun) : CliLoop :=
  { m with run := r, woken := m.woken || a.wakesClient m.run.sig }.notify

/-- One move; `none` if it is not possible. -/
def CliLoop.step (m : CliLoop) : CliAct → Option CliLoop
  | .select order =>
    match m.pc with
    | .top => if bothBranches order then some { m with pc := .polling order } else none
    | _ => none
  | .poll =>
    match m.pc with
    | .polling (b :: todo) => m.pollBranch todo b
    | _ => none
  | .park =>
    match m.pc with
    | .polling [] => some { m with pc := .pending }
    | _ => none
  | .repoll order =>
    match m.pc with
    | .pending => if m.woken && bothBranches order then some { m with pc := .polling order, woken := false } else none
    | _ => none
  | .sent ok => if m.pc = .outside then (m.run.step (if ok then .sigOk else .sigErr)).map m.after else none
  | .check => if m.pc = .outside then (m.run.step .check).map m.after else none
  | .env a =>
    if a.outside then (m.run.step a).map (m.surround a) else none
  | .break_ e => some { m with broken := some e }.notify
  | .wake => some { m with woken := true }

end AstroRun
