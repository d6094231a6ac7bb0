import Verif.Model.Signal
import Verif.Model.Id
import Verif.Model.Map

/-!
# `SignalManager`: the registry of running jobs' signals

crates/astro-run/src/signals/mod.rs.  An `AstroRunSignal` is a shared pointer (`Arc`), so the map holds
references into a heap of signal states; `register_signal` is always called with a fresh signal
(crates/astro-run/src/execution_context/mod.rs:219-221), which allocates a new cell.
-/

namespace AstroRun

/-- crates/astro-run/src/signals/mod.rs:9-12, plus the heap the `Arc`s point into. -/
structure SigMgr where
  heap : List SigState := []
  signals : AMap JobId Nat := []
  deriving DecidableEq, Repr, Inhabited

/-- crates/astro-run/src/signals/mod.rs:19-21, called with `AstroRunSignal::new()`. -/
def SigMgr.register (m : SigMgr) (j : JobId) : SigMgr :=
  { heap := m.heap ++ [{}], signals := m.signals.insert j m.heap.length }

/-- crates/astro-run/src/signals/mod.rs:23-25 -/
def SigMgr.unregister (m : SigMgr) (j : JobId) : SigMgr :=
  { m with signals := m.signals.erase j }

/-- crates/astro-run/src/signals/mod.rs:27-29: the reference handed out. -/
def SigMgr.getSignal (m : SigMgr) (j : JobId) : Option Nat := m.signals.get? j

/-- `signal.cancel()` through a reference (second critical section of `cancel_job`). -/
def SigMgr.cancelRef (m : SigMgr) (r : Nat) : SigMgr × Except Error Unit :=
  match m.heap[r]? with
  | none => (m, .ok ())   -- unreachable: references always point into the heap
  | some s =>
    let o := s.set .cancel
    ({ m with heap := m.heap.set r o.state },
      if o.ok then .ok () else .error (.error "Signal has been cancelled or timeout."))

/-- crates/astro-run/src/signals/mod.rs:31-39 (`cancel_job`), undisturbed between its two critical sections. -/
def SigMgr.cancelJob (m : SigMgr) (j : JobId) : SigMgr × Except Error Unit :=
  match m.getSignal j with
  | none => (m, .error (.error ("Job " ++ j.toStr ++ " not found")))
  | some r => m.cancelRef r

/-- What the engine and API users do to the registry. -/
inductive MgrOp
  /-- a job starts (`call_on_run_job`, execution_context/mod.rs:218-221) -/
  | start (j : JobId)
  /-- a job completes (`call_on_job_completed`, execution_context/mod.rs:243-244) -/
  | finish (j : JobId)
  /-- `cancel_job` (execution_context/mod.rs:198-200, astro_run.rs:21-23) -/
  | cancel (j : JobId)
  deriving DecidableEq, Repr

/-- One operation and, for `cancel`, its answer. -/
def SigMgr.op (m : SigMgr) : MgrOp → SigMgr × Option (Except Error Unit)
  | .start j => (m.register j, none)
  | .finish j => (m.unregister j, none)
  | .cancel j => let (m', r) := m.cancelJob j; (m', some r)

/-- A history of operations with the answers given. -/
def SigMgr.exec (m : SigMgr) : List MgrOp → SigMgr × List (Option (Except Error Unit))
  | [] => (m, [])
  | o :: os =>
    let (m1, a) := m.op o
    let (m2, as) := m1.exec os
    (m2, a :: as)

end AstroRun
