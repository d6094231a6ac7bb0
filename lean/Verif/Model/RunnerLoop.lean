import Verif.Model.LocalRun

/-!
# The task of the local runner, poll by poll

The task spawned by `AstroRunner::run` for a step (crates/runner/src/astro_runner.rs:57-69) at the level of futures and
wakers: the `select!` of the executors (executors/docker.rs:50-69, executors/host.rs:42-55) polls `Command::run` and the
step's signal, in an order chosen at random each time; `Command::run`, while it is reading, is itself a `select!` of the two
pipes (command.rs:83-112).  Other threads can get in between two polls.  If everything is pending the task sleeps until a
waker it left behind is used.  What each move does is `LocalRun`'s (which has one move for a whole iteration instead).

tokio's pipes and child handle are modelled by when they are ready (a line or the end of the pipe is there, or the system
call fails; the process has exited) and by their promise to use the waker of a pending poll when they get ready.  The task
has number `0`.
-/

namespace AstroRun

/-- The branches of the executor's `select!` (docker.rs:51 and 54, host.rs:44 and 47). -/
inductive RunBranch
  | command | signal
  deriving DecidableEq, Repr

/-- The branches of the `select!` of `Command::run` (command.rs:84 and 98). -/
inductive PipeBranch
  | out | err
  deriving DecidableEq, Repr

/-- Where the task is. -/
inductive RunSel
  /-- not in `select!`: see `LocalRun.pc` -/
  | outside
  /-- before the first poll of the executor's `select!` -/
  | top
  /-- polling it: the branches not yet polled this time -/
  | polling (todo : List RunBranch)
  /-- polling `Command::run` (the branches to be polled afterwards) -/
  | command (todo : List RunBranch)
  /-- polling the `select!` of `Command::run`: the pipes not yet polled -/
  | pipes (todo : List RunBranch) (inner : List PipeBranch)
  /-- the poll returned `Pending` -/
  | pending
  deriving DecidableEq, Repr

/-- The task and everything around it. -/
structure RunLoop where
  run : LocalRun
  pc : RunSel := .outside
  /-- a waker of the task was used since it was last taken from the run queue -/
  woken : Bool := false
  /-- the pipes and the child handle hold a waker of the task -/
  outWaits : Bool := false
  errWaits : Bool := false
  exitWaits : Bool := false
  /-- the next `read` or `wait` fails -/
  outBroken : Option String := none
  errBroken : Option String := none
  waitBroken : Bool := false
  deriving DecidableEq, Repr

/-- A poll of `lines.next_line()` is ready. -/
def RunLoop.outReady (m : RunLoop) : Bool :=
  m.outBroken.isSome || (match m.run.child with
    | some ch => !ch.outQ.isEmpty || !ch.outOpen
    | none => false)

/-- A poll of `errors.next_line()` is ready. -/
def RunLoop.errReady (m : RunLoop) : Bool :=
  m.errBroken.isSome || (match m.run.child with
    | some ch => !ch.errQ.isEmpty || !ch.errOpen
    | none => false)

/-- A poll of `child.wait()` is ready. -/
def RunLoop.exitReady (m : RunLoop) : Bool :=
  m.waitBroken || (match m.run.child with
    | some ch => ch.exit.isSome
    | none => false)

/-- Pipes and child handle keep their promise. -/
def RunLoop.notify (m : RunLoop) : RunLoop :=
  if (m.outWaits && m.outReady) || (m.errWaits && m.errReady) || (m.exitWaits && m.exitReady) then
    { m with woken := true, outWaits := m.outWaits && !m.outReady, errWaits := m.errWaits && !m.errReady,
             exitWaits := m.exitWaits && !m.exitReady }
  else m

/-- crates/astro-run/src/signals/signal.rs:49-51 and 65-67: setting the step's signal wakes the task. -/
def LocalAct.wakesRunner (sig : SigState) : LocalAct → Bool
  | .setSignal v => (sig.set v).woken == some 0
  | _ => false

/-- Moves. -/
inductive RunLoopAct
  /-- a move of the task outside of `select!` -/
  | own (a : LocalAct)
  /-- the first poll of the executor's `select!`, the branches in this order -/
  | select (order : List RunBranch)
  /-- poll what is next -/
  | poll
  /-- `spawn` returns (command.rs:61-67) -/
  | spawn (ok : Bool)
  /-- `Command::run` polls its pipes in this order -/
  | inner (order : List PipeBranch)
  /-- everything was pending: return to the executor -/
  | park
  /-- executor: poll the woken task again, the branches in this order -/
  | repoll (order : List RunBranch)
  /-- something else happens -/
  | env (a : LocalAct)
  /-- reading a pipe, or waiting for the process, fails from now on -/
  | breakOut (e : String) | breakErr (e : String) | breakWait
  /-- some other waker of the task is used (tokio's cooperative budget, for example) -/
  | wake
  deriving DecidableEq, Repr

/-- `select!` polls both branches, each once. -/
def bothRun (order : List RunBranch) : Bool := order = [.command, .signal] || order = [.signal, .command]

/-- see `bothRun` -/
def bothPipes (order : List PipeBranch) : Bool := order = [.out, .err] || order = [.err, .out]

/-- Moves of the task outside of its `select!`. -/
def LocalAct.sequential : LocalAct → Bool
  | .prepErr | .begin_ | .mkdirOk | .mkdirErr | .entryOk | .entryErr | .killDone | .removeOk | .removeErr | .finish | .hook => true
  | _ => false

/-- The task after the move to `l` of `LocalRun`; `stay` is where it is if it is still in its `select!`. -/
def RunLoop.after (m : RunLoop) (stay : RunSel) (l : LocalRun) : RunLoop :=
  { m with
    run := l
    pc := match l.pc with
      | .select _ => stay
      | _ => .outside }

/-- One poll of a pipe: command.rs:84-111. -/
def RunLoop.pollPipe (m : RunLoop) (todo : List RunBranch) (inner : List PipeBranch) : PipeBranch → Option RunLoop
  | .out =>
    match m.outBroken with
    | some e => (m.run.step (.readOutFail e)).map (m.after (.command todo))
    | none =>
      match m.run.step .readOut with
      | some l => some (m.after (.command todo) l)
      | none => some { m with pc := .pipes todo inner, outWaits := true }
  | .err =>
    match m.errBroken with
    | some e => (m.run.step (.readErrFail e)).map (m.after (.command todo))
    | none =>
      match m.run.step .readErr with
      | some l => some (m.after (.command todo) l)
      | none => some { m with pc := .pipes todo inner, errWaits := true }

/-- One poll of `child.wait()`: command.rs:115-132. -/
def RunLoop.pollWait (m : RunLoop) (todo : List RunBranch) : Option RunLoop :=
  if m.waitBroken then (m.run.step .waitErr).map (m.after (.polling todo))
  else
    match m.run.step .waitOk with
    | some l => some (m.after (.polling todo) l)
    | none => some { m with pc := .polling todo, exitWaits := true }

/-- One poll of `ctx.signal.recv()`: docker.rs:54, host.rs:47. -/
def RunLoop.pollSignal (m : RunLoop) (todo : List RunBranch) : Option RunLoop :=
  match m.run.step .sigReady with
  | some l => some (m.after .outside l)
  | none => some { m with run := { m.run with sig := (m.run.sig.poll 0).1 }, pc := .polling todo }

/-- One move; `none` if it is not possible. -/
def RunLoop.step (m : RunLoop) : RunLoopAct → Option RunLoop
  | .own a => if m.pc = .outside ∧ a.sequential then (m.run.step a).map (m.after .top) else none
  | .select order =>
    match m.pc with
    | .top => if bothRun order then some { m with pc := .polling order } else none
    | _ => none
  | .poll =>
    match m.pc with
    -- a branch whose result did not match its pattern is not polled again
    | .polling (.command :: todo) => some { m with pc := if m.run.pc = .select .okDone then .polling todo else .command todo }
    | .polling (.signal :: todo) => m.pollSignal todo
    | .command todo => if m.run.pc = .select .waiting then m.pollWait todo else none
    | .pipes todo (p :: inner) => m.pollPipe todo inner p
    | .pipes todo [] => some { m with pc := .polling todo }
    | _ => none
  | .spawn ok =>
    match m.pc with
    | .command todo => (m.run.step (if ok then .spawnOk else .spawnErr)).map (m.after (.command todo))
    | _ => none
  | .inner order =>
    match m.pc with
    | .command todo =>
      if m.run.pc = .select .reading ∧ bothPipes order then some { m with pc := .pipes todo order } else none
    | _ => none
  | .park =>
    match m.pc with
    | .polling [] => some { m with pc := .pending }
    | _ => none
  | .repoll order =>
    match m.pc with
    | .pending => if m.woken && bothRun order then some { m with pc := .polling order, woken := false } else none
    | _ => none
  | .env a =>
    if a.own then none
    else (m.run.step a).map fun l => { m with run := l, woken := m.woken || a.wakesRunner m.run.sig }.notify
  | .breakOut e => some { m with outBroken := some e }.notify
  | .breakErr e => some { m with errBroken := some e }.notify
  | .breakWait => some { m with waitBroken := true }.notify
  | .wake => some { m with woken := true }

end AstroRun
