import Verif.Spec.Fair
import Verif.Spec.LocalEngine

/-! # Specification vocabulary: endless executions of an engine on the local runner -/

namespace AstroRun.Spec
open AstroRun

/-- Endless executions of an engine with a local runner: it is in state `f n` after `n` moves, `a n` is its next move. -/
structure EngineEndless (setup : EngineSetup) (f : Nat → LocalEngine) (a : Nat → EngineAct) : Prop where
  start : f 0 = LocalEngine.initial setup
  moves : ∀ n, (f n).step (a n) = some (f (n + 1))

/-- The moves of the main task of run `r`. -/
def engineMainOf (r : Nat) (y : EngineAct) : Prop := ∃ b, y = .sys (.main r b)

/-- The moves of job task `i` of run `r`, but for the branches of its `select!`; with the runner's answer to `run`. -/
def engineJobOf (r i : Nat) (y : EngineAct) : Prop := (∃ x, y = .sys x ∧ workOf r i x) ∨ ∃ past envs, y = .spawned r i past envs

/-- The branch of the `select!` of job task `i` of run `r` that reads the step's stream. -/
def engineRecvOf (r i : Nat) (y : EngineAct) : Prop := y = .sys (.task r i .recv)

/-- The moves of the `n`-th task the runner spawned for job task `i` of run `r` (failures of the operating system are nobody's
moves: they may happen or not). -/
def runnerTaskOf (r i n : Nat) (y : EngineAct) : Prop := ∃ b : LocalAct, y = .loc r i n b ∧ b.own = true ∧ isFailure b = false

/-- Every process started for run `r` ends at some time, and its output with it. -/
def ProcessesEnd (f : Nat → LocalEngine) (r : Nat) : Prop :=
  ∀ (i n : Nat), Finally fun k => ∀ p l, ((f k).tasks r i)[n]? = some (p, l) → ProcessOver l

/-- Moves of the engine's and the runner's own, of processes and of the clock: not those of users, who start workflows and cancel
jobs, and not failures of the operating system. -/
def goesOn : EngineAct → Bool
  | .sys (.start _) | .sys (.cancel _) => false
  | .loc _ _ _ b => !isFailure b
  | _ => true

/-- The branch of the `select!` of job task `i` of run `r` taken when its timer has expired. -/
def engineTimerOf (r i : Nat) (y : EngineAct) : Prop := y = .sys (.task r i .timer)

/-- Every process started for run `r` writes finitely many lines: it ends, or falls silent. -/
def ProcessesFallSilent (a : Nat → EngineAct) (r : Nat) : Prop :=
  ∀ (i n : Nat), Finally fun k => ∀ line, a k ≠ .loc r i n (.childOut line) ∧ a k ≠ .loc r i n (.childErr line)

/-- Time passes: every point of time comes. -/
def TimePasses (f : Nat → LocalEngine) : Prop := ∀ T, ∃ n, T ≤ (f n).sys.now

/-- Moves of the engine's, of the runner's tasks and of the clock: not of users, not failures, and nothing a process does: it does not
write, close its output or end. -/
def withoutProcesses : EngineAct → Bool
  | .sys (.start _) | .sys (.cancel _) => false
  | .loc _ _ _ b => b.own && !isFailure b
  | _ => true

/-- The branch of the `select!` of job task `i` of run `r` taken when the job was cancelled. -/
def engineSignalOf (r i : Nat) (y : EngineAct) : Prop := y = .sys (.task r i .jobSignal)

/-- The branch of the `select!` of the runner's `n`-th task for job task `i` of run `r` taken when its step was sent a signal. -/
def runnerSignalOf (r i n : Nat) (y : EngineAct) : Prop := y = .loc r i n .sigReady

/-- Lines the process of the runner's `n`-th task for job task `i` of run `r` writes to its standard output. -/
def writesOf (r i n : Nat) (y : EngineAct) : Prop := ∃ line, y = .loc r i n (.childOut line)

/-- Moves of the engine's, of the runner's tasks and of the clock, and lines that processes write: not of users, not failures, and no process
ends or closes its output. -/
def neverEnding : EngineAct → Bool
  | .sys (.start _) | .sys (.cancel _) => false
  | .loc _ _ _ (.childOut _) => true
  | .loc _ _ _ b => b.own && !isFailure b
  | _ => true

/-- Job `k` has been started at most once in the run. -/
def StartedOnce (ρ : SysRun) (k : Id) : Prop := ∀ i j, RunsJob ρ i k → RunsJob ρ j k → i = j

end AstroRun.Spec
