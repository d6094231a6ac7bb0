import Verif.Model.RunnerLoop
import Verif.Spec.LocalRun
import Verif.Spec.SelectLoop

/-! # Specification vocabulary: the task of the local runner, poll by poll -/

namespace AstroRun.Spec
open AstroRun

/-- What the task for plan `p` gets to by schedule `acts`. -/
def TaskReach (p : RunPlan) (plugins : Nat) (acts : List RunLoopAct) (m : RunLoop) : Prop :=
  runs RunLoop.step { run := LocalRun.initial p plugins } acts = some m

/-- The task is asleep: its last poll returned `Pending` and nothing has woken it since. -/
def RunnerAsleep (m : RunLoop) : Prop := m.pc = .pending ∧ m.woken = false

/-- There is nothing for the task to do: its step's signal is not set, and either the process runs, both its pipes are open,
work, and all they held was read; or a pipe was closed and the process still runs; or the process's exit was seen. -/
def NothingReady (m : RunLoop) : Prop :=
  m.run.sig.signal = none ∧ match m.run.pc with
    | .select .reading => m.outBroken = none ∧ m.errBroken = none ∧ ∃ ch, m.run.child = some ch ∧
        ch.outQ = [] ∧ ch.errQ = [] ∧ ch.outOpen = true ∧ ch.errOpen = true
    | .select .waiting => m.waitBroken = false ∧ ∃ ch, m.run.child = some ch ∧ ch.exit = none
    | .select .okDone => m.run.exitSeen.isSome = true
    | _ => False

/-- Moves of the task. -/
def taskMove : RunLoopAct → Bool
  | .own _ | .select _ | .poll | .spawn _ | .inner _ | .park | .repoll _ => true
  | _ => false

/-- The task has come to rest: it has no move. -/
def TaskRests (m : RunLoop) : Prop := ∀ a, taskMove a = true → m.step a = none

/-- The same execution but for who waits for the step's signal. -/
def SameTaskState (l l' : LocalRun) : Prop := l' = { l with sig := l'.sig } ∧ SameSignal l.sig l'.sig

/-- Output written by the process and not yet read. -/
def unreadLines (m : LocalRun) : Nat := (unreadOut m).length + (unreadErr m).length

/-- The moves of the surroundings (process, signal) in a schedule. -/
def surroundingsOf : RunLoopAct → Option LocalAct
  | .env a => some a
  | _ => none

end AstroRun.Spec
