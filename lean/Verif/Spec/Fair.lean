import Verif.Spec.System

/-! # Specification vocabulary: endless executions and fairness -/

namespace AstroRun.Spec
open AstroRun

/-- Endless executions of the engine: it is in state `f n` after `n` moves, `a n` is its next move.  (The clock can always go on, so
every execution can be continued forever.) -/
structure Endless (f : Nat → Sys) (a : Nat → SysAct) : Prop where
  start : f 0 = {}
  moves : ∀ n, (f n).step (a n) = some (f (n + 1))

section
variable {σ α : Type}

/-- The first `n` moves. -/
def firstMoves (a : Nat → α) (n : Nat) : List α := (List.range n).map a

/-- Infinitely often. -/
def Often (p : Nat → Prop) : Prop := ∀ n, ∃ m, n ≤ m ∧ p m

/-- From some point on always. -/
def Finally (p : Nat → Prop) : Prop := ∃ n, ∀ m, n ≤ m → p m

/-- A move of the kind `c` is possible after `n` moves. -/
def Possible (step : σ → α → Option σ) (f : Nat → σ) (c : α → Prop) (n : Nat) : Prop := ∃ x, c x ∧ step (f n) x ≠ none

/-- Weak fairness: who can move from some point on moves again and again. -/
def WeaklyFair (step : σ → α → Option σ) (f : Nat → σ) (a : Nat → α) (c : α → Prop) : Prop :=
  Finally (Possible step f c) → Often fun n => c (a n)

/-- Strong fairness: who can move again and again moves again and again. -/
def StronglyFair (step : σ → α → Option σ) (f : Nat → σ) (a : Nat → α) (c : α → Prop) : Prop :=
  Often (Possible step f c) → Often fun n => c (a n)
end

/-- The moves of the main task of run `r`. -/
def mainOf (r : Nat) (x : SysAct) : Prop := ∃ b, x = .main r b

/-- The moves of job task `i` of run `r`, but for the branches of its `select!` (and the runner's answer to `run`). -/
def workOf (r i : Nat) (x : SysAct) : Prop :=
  ∃ b, x = .task r i b ∧ match b with
    | .check _ | .emit | .nextStep _ _ | .finishJob | .call | .refuse _ | .accept | .enter | .send => True
    | .timer | .jobSignal | .recv | .push _ | .endStream _ => False

/-- The branch of the `select!` of job task `i` of run `r` that takes an item from the step's stream, or notices its end. -/
def recvOf (r i : Nat) (x : SysAct) : Prop := x = .task r i .recv

/-- Job task `i` of run `r` is in the state `t` after `n` moves. -/
def TaskNow (f : Nat → Sys) (r i n : Nat) (t : SysTask) : Prop := ∃ ρ, (f n).runs[r]? = some ρ ∧ ρ.tasks[i]? = some t

/-- The runner does its duty for run `r`: if job task `i` stays within one step, the runner ends the step's stream and writes no
further lines from some point on. -/
def RunnerEnds (f : Nat → Sys) (a : Nat → SysAct) (r : Nat) : Prop :=
  ∀ i n, (∀ m t, n ≤ m → TaskNow f r i m t → t.pc.runnerActive = true) →
    ∃ m, n ≤ m ∧ (∀ t, TaskNow f r i m t → t.stream.result ≠ none) ∧ ∀ k l, m ≤ k → a k ≠ .task r i (.push l)

end AstroRun.Spec
