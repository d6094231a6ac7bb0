import Verif.Model.System

/-!
# Runs that are given up, jobs whose user code panics

`Workflow::run` is an async function (crates/astro-run/src/workflow/mod.rs:28-151): whoever awaits it may stop doing so and drop it
(a timeout around it, a `select!`, a request that is aborted), at any await.  A hook called by it may panic, with the same
effect.  Its receiver (58) goes with it, the tasks it spawned do not: `tokio::spawn` (154) detaches them, the join handle is thrown
away.  A task whose hooks, matcher or runner panic ends there and then; nobody looks at its join handle, its sender (154-157) is
dropped, and the main task keeps a sender of its own (58), so that its `receiver.recv()` (92) does not notice.

The other moves are those of `Verif.Model.System`.  Simplification: results that wait in the channel of a run that was given up stay in
the model's channel, from which nobody receives any more.
-/

namespace AstroRun

/-- The engine, and what has gone wrong so far. -/
structure Faulty where
  sys : Sys := {}
  /-- runs whose future was dropped, or whose own hooks panicked -/
  gone : List Nat := []
  /-- job tasks that ended by a panic of user code -/
  dead : List (Nat × Nat) := []
  /-- job tasks that could not deliver, their run being gone (workflow/mod.rs:157-159) -/
  lost : List (Nat × Nat) := []
  deriving DecidableEq, Repr

/-- Moves of the engine, and what may go wrong. -/
inductive FaultAct
  | go (a : SysAct)
  /-- the future of run `r` is dropped, or a hook it calls panics -/
  | drop (r : Nat)
  /-- user code called by job task `i` of run `r` panics -/
  | crash (r i : Nat)
  /-- job task `i` of run `r` finds the receiver gone, logs an error and ends (workflow/mod.rs:157-159) -/
  | giveUp (r i : Nat)
  deriving DecidableEq, Repr

/-- The runner's own moves for a step: they need neither the job's task nor the workflow's. -/
def TaskAct.ofRunner : TaskAct → Bool
  | .push _ | .endStream _ => true
  | _ => false

/-- Who is still there to make the move (workflow/mod.rs:28-161). -/
def Faulty.allows (F : Faulty) : SysAct → Bool
  | .main r _ => !F.gone.contains r
  | .task r i a => a.ofRunner || !F.dead.contains (r, i) && !(F.gone.contains r && decide (a = .send))
  | _ => true

/-- crates/astro-run/src/workflow/mod.rs:151: `run` has returned. -/
def WfPc.isReturned : WfPc → Bool
  | .returned _ => true
  | _ => false

/-- The task may still call user code: `Job::run` has not returned (workflow/mod.rs:155) and the task has not ended. -/
def SysPc.callsUsers : SysPc → Bool
  | .finished _ | .sent _ | .panicked _ => false
  | _ => true

/-- One move; `none` if it is not possible. -/
def Faulty.step (F : Faulty) : FaultAct → Option Faulty
  | .go a => if F.allows a then (F.sys.step a).map fun M => { F with sys := M } else none
  -- workflow/mod.rs:28-151: dropped while it has not returned
  | .drop r =>
    match F.sys.runs[r]? with
    | some ρ => if F.gone.contains r || ρ.pc.isReturned then none else some { F with gone := r :: F.gone }
    | none => none
  -- workflow/mod.rs:154-155
  | .crash r i =>
    match F.sys.runs[r]?.bind fun ρ => ρ.tasks[i]? with
    | some t => if F.dead.contains (r, i) || !t.pc.callsUsers then none else some { F with dead := (r, i) :: F.dead }
    | none => none
  -- workflow/mod.rs:157-159
  | .giveUp r i =>
    match F.sys.runs[r]?.bind fun ρ => ρ.tasks[i]? with
    | some t =>
      match t.pc with
      | .finished _ =>
        if F.gone.contains r && !F.lost.contains (r, i) then some { F with lost := (r, i) :: F.lost } else none
      | _ => none
    | none => none

end AstroRun
