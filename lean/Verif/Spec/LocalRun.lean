import Verif.Model.LocalRun

/-! # Specification vocabulary: executions of a step by the local runner -/

namespace AstroRun.Spec
open AstroRun

/-- `m` is a state of the execution of plan `p` that schedule `acts` leads to. -/
def LocalReach (p : RunPlan) (plugins : Nat) (acts : List LocalAct) (m : LocalRun) : Prop :=
  runs LocalRun.step (LocalRun.initial p plugins) acts = some m

/-- Failures of the operating system (file system, process creation, pipes), which may or may not happen. -/
def isFailure : LocalAct → Bool
  | .prepErr | .mkdirErr | .entryErr | .spawnErr | .readOutFail _ | .readErrFail _ | .waitErr | .removeErr => true
  | _ => false

/-- The task can make no move of its own, other than the operating system failing: it waits for the process or the
engine, or is finished. -/
def TaskStuck (m : LocalRun) : Prop := ∀ a : LocalAct, a.own = true → isFailure a = false → m.step a = none

/-- The process, if there is one, has exited and closed its pipes. -/
def ProcessOver (m : LocalRun) : Prop :=
  ∀ ch, m.child = some ch → ch.exit.isSome = true ∧ ch.outOpen = false ∧ ch.errOpen = false

/-- The result a step should end with, given the exit status and the signal the task observed: the exit status
if it was observed, otherwise the signal, otherwise failure 1. -/
def expectedResult : (exit : Option (Option Int)) → (signal : Option Signal) → RunResult
  | some (some code), _ => if code = 0 then .succeeded else .failed code
  | some none, _ => .failed 1
  | none, some .cancel => .cancelled
  | none, some .timeout => .failed 123
  | none, none => .failed 1

/-- The messages of the ordinary log lines, and of the error lines. -/
def outLines (logs : List Log) : List String := (logs.filter fun l => decide (l.logType = .log)).map Log.message
/-- see `outLines` -/
def errLines (logs : List Log) : List String := (logs.filter fun l => decide (l.logType = .error)).map Log.message

/-- What the process has written and nobody has read. -/
def unreadOut (m : LocalRun) : List String := (m.child.map Child.outQ).getD []
/-- see `unreadOut` -/
def unreadErr (m : LocalRun) : List String := (m.child.map Child.errQ).getD []

end AstroRun.Spec
