import Verif.Model.Signal
import Verif.Model.Run

/-!
# One `AstroRunSignal`, any number of waiting tasks

crates/astro-run/src/signals/signal.rs.  A runner gets the signal with its context (crates/astro-run/src/types/context.rs:20-21), and
the signal can be cloned (signal.rs:27-30), so several tasks may call `recv()` on it at the same time.  The state has
room for one waker (20), which every poll overwrites (95).
-/

namespace AstroRun

/-- A task that waits: `awaiting` as in `RxSys`, or its future was dropped (for example by `select!`). -/
inductive WaitStatus
  | awaiting (s : RxStatus)
  | dropped
  deriving DecidableEq, Repr

/-- A signal and all tasks that ever called `recv()`, in order. -/
structure SigMany where
  sig : SigState := {}
  tasks : List WaitStatus := []
  deriving DecidableEq, Repr

/-- Moves. -/
inductive ManyAct
  /-- a task calls `recv()` and awaits it -/
  | recv
  /-- the executor polls the runnable task `i` -/
  | poll (i : Nat)
  /-- task `i` stops waiting -/
  | drop (i : Nat)
  /-- some thread calls `cancel()` or `timeout()` -/
  | set (v : Signal)
  deriving DecidableEq, Repr

/-- A woken parked task is runnable again. -/
def WaitStatus.wake : WaitStatus → WaitStatus
  | .awaiting .parked => .awaiting .runnable
  | s => s

/-- signal.rs:36-38, 40-69 and 83-98. -/
def SigMany.step (m : SigMany) : ManyAct → Option SigMany
  | .recv => some { m with tasks := m.tasks ++ [.awaiting .runnable] }
  | .poll i => match m.tasks[i]? with
    | some (.awaiting .runnable) => match m.sig.poll i with
      | (sig, some v) => some { sig := sig, tasks := m.tasks.set i (.awaiting (.got v)) }
      | (sig, none) => some { sig := sig, tasks := m.tasks.set i (.awaiting .parked) }
    | _ => none
  | .drop i => match m.tasks[i]? with
    | some (.awaiting .runnable) | some (.awaiting .parked) => some { m with tasks := m.tasks.set i .dropped }
    | _ => none
  | .set v =>
    let o := m.sig.set v
    some { sig := o.state
           tasks := match o.woken with
             | some i => m.tasks.modify i WaitStatus.wake
             | none => m.tasks }

end AstroRun
