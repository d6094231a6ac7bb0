import Verif.Model.JobMachine

/-!
# The loop around a running step, poll by poll

The loop of `ExecutionContext::run` (crates/astro-run/src/execution_context/mod.rs:108-140) at the level of futures and
wakers: `select!` polls its three branches in an order chosen at random each time, each poll being one critical section
that other threads can get in between; if all are pending the task goes to sleep until a waker it left behind is used.
The engine's task has number `0`; the runner's task, which waits for the step's signal (`signal.recv()`), has number `1`.
(`JobM` has one move for a whole iteration instead.)

Simplifications.  The runner's task does nothing but wait for the signal here; what it writes to the stream are moves of
their own.  `StreamSender::end` is one move (split in `Verif.Model.Stream`).  A timer whose time has come is ready when
polled; its waker is used some time after that.  Waiting for the log hooks (execution_context/mod.rs:134) ends at
any time.  Once the loop is over the runner's writes are left out.
-/

namespace AstroRun

/-- The branches of `select!` (execution_context/mod.rs:111, 115 and 125). -/
inductive Branch
  | timer | signal | stream
  deriving DecidableEq, Repr

/-- Where the engine's task is. -/
inductive SelPc
  /-- at the top of the loop (108) -/
  | top
  /-- polling `select!` (109): the branches not yet polled this time; the timer expires at `deadline` -/
  | polling (deadline : Time) (todo : List Branch)
  /-- the poll returned `Pending` -/
  | pending (deadline : Time)
  /-- waiting for the log hooks (134) -/
  | hook
  /-- after the loop, the stream's result being `r` (142-148), at time `t` (150) -/
  | done (r : RunResult) (t : Time)
  deriving DecidableEq, Repr

/-- The loop and everything it shares. -/
structure SelLoop where
  timeout : Nat
  now : Time := 0
  pc : SelPc := .top
  /-- a waker of the engine's task was used since the task was last taken from the run queue -/
  woken : Bool := false
  /-- the timer driver holds a waker of the engine's task for this time -/
  timer : Option Time := none
  /-- the job's signal (50-54) and the step's (56) -/
  job : SigState := {}
  sig : SigState := {}
  stream : StreamState := {}
  /-- the runner's task -/
  rx : RxStatus := .runnable
  /-- log lines given to the hooks -/
  logged : List Log := []
  deriving DecidableEq, Repr

/-- Moves. -/
inductive SelAct
  /-- engine: evaluate `select!`, the branches being polled in this order -/
  | select (order : List Branch)
  /-- engine: poll the next branch -/
  | poll
  /-- engine: all branches were pending: return to the executor -/
  | park
  /-- executor: poll the woken task again, the branches in this order -/
  | repoll (order : List Branch)
  /-- engine: the log hooks are done -/
  | hookDone
  /-- timer driver: use the waker -/
  | fire
  /-- some other waker of the engine's task is used -/
  | wake
  | tick (n : Nat)
  /-- runner: write a log entry, end the stream -/
  | push (l : Log)
  | endStream (r : RunResult)
  /-- API user: `cancel_job` -/
  | cancel
  /-- executor: poll the runner's task -/
  | rxPoll
  deriving DecidableEq, Repr

/-- `select!` polls every branch. -/
def allBranches (order : List Branch) : Bool := order.contains .timer && order.contains .signal && order.contains .stream

/-- A waker was used: the engine's task is put into the run queue. -/
def SelLoop.wakes (m : SelLoop) (w : Option Nat) : SelLoop := { m with woken := m.woken || w == some 0 }

/-- execution_context/mod.rs:113, 118, 121: set the step's signal, which may wake the runner's task (signal.rs:48-50, 64-66). -/
def SelLoop.setSig (m : SelLoop) (v : Signal) : SelLoop :=
  let o := m.sig.set v
  { m with sig := o.state, rx := if m.rx = .parked ∧ o.woken = some 1 then .runnable else m.rx }

/-- execution_context/mod.rs:109-139: poll branch `b`, with `todo` still to be polled. -/
def SelLoop.pollBranch (m : SelLoop) (d : Time) (todo : List Branch) : Branch → Option SelLoop
  | .timer =>
    if d ≤ m.now then some { m.setSig .timeout with pc := .top, timer := none }
    else some { m with pc := .polling d todo, timer := some d }
  | .signal =>
    match m.job.poll 0 with
    | (job, some v) => some { { m with job := job }.setSig v with pc := .top, timer := none }
    | (job, none) => some { m with job := job, pc := .polling d todo }
  | .stream =>
    match m.stream.poll 0 with
    | (st, .item l) => some { m with stream := st, woken := true, logged := m.logged ++ [l], pc := .hook, timer := none }
    | (st, .eos) =>
      match m.stream.result with
      | some r => some { m with stream := st, pc := .done r m.now, timer := none }
      | none => none  -- unreachable: the stream only ends with a result
    | (st, .pending) => some { m with stream := st, pc := .polling d todo }

/-- One move; `none` if it is not possible. -/
def SelLoop.step (m : SelLoop) : SelAct → Option SelLoop
  | .select order =>
    match m.pc with
    | .top => if allBranches order then some { m with pc := .polling (m.now + m.timeout) order } else none
    | _ => none
  | .poll =>
    match m.pc with
    | .polling d (b :: todo) => m.pollBranch d todo b
    | _ => none
  | .park =>
    match m.pc with
    | .polling d [] => some { m with pc := .pending d }
    | _ => none
  | .repoll order =>
    match m.pc with
    | .pending d =>
      if m.woken && allBranches order then some { m with pc := .polling d order, woken := false } else none
    | _ => none
  | .hookDone => if m.pc = .hook then some { m with pc := .top } else none
  | .fire =>
    match m.timer with
    | some d => if d ≤ m.now then some { m with timer := none, woken := true } else none
    | none => none
  | .wake => some { m with woken := true }
  | .tick n => some { m with now := m.now + n }
  -- stream.rs:71-87
  | .push l =>
    match m.pc with
    | .done _ _ => none
    | _ => some ({ m with stream := (m.stream.push l).1 }.wakes (m.stream.push l).2)
  -- stream.rs:106-118
  | .endStream r =>
    match m.pc with
    | .done _ _ => none
    | _ => some ({ m with stream := (m.stream.endSeq r).1 }.wakes (m.stream.endSeq r).2)
  -- signals/mod.rs:31-39, signal.rs:40-53
  | .cancel => some ({ m with job := (m.job.set .cancel).state }.wakes (m.job.set .cancel).woken)
  -- signal.rs:83-98
  | .rxPoll =>
    match m.rx with
    | .runnable =>
      match m.sig.poll 1 with
      | (sig, some v) => some { m with sig := sig, rx := .got v }
      | (sig, none) => some { m with sig := sig, rx := .parked }
    | _ => none

end AstroRun
