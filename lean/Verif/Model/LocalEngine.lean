import Verif.Model.System
import Verif.Model.LocalStack

/-!
# An engine whose runner is the local runner

One `AstroRun` (`Verif.Model.System`) running any number of workflows at the same time, all of whose steps are handed to
one `AstroRunner` (crates/runner/src/astro_runner.rs:17-70), which spawns a task (`LocalRun`) for each; every task
starts a process.  As in `Verif.Model.LocalStack`, engine and task share the step's signal
(crates/astro-run/src/execution_context/mod.rs:56-66) and the stream; each side keeps its own copy of the two and a move
that writes one of them writes both copies.  Simplification: what the runner does when a workflow completes
(astro_runner.rs:31-37) is left to `RunnerMem.onWorkflowCompleted`.
-/

namespace AstroRun

/-- The runner (astro_runner.rs:17-22), and the event of the execution context each run was started with
(crates/astro-run/src/execution_context/mod.rs:16-23). -/
structure EngineSetup where
  os : String
  arch : String
  workingDirectory : String
  plugins : List RunnerPlugin := []
  event : (run : Nat) → Option TriggerEvent := fun _ => none

/-- The engine and the tasks the runner has spawned: `tasks r i` are those for job task `i` of run `r`, in order. -/
structure LocalEngine where
  setup : EngineSetup
  sys : Sys := {}
  mem : RunnerMem := {}
  tasks : Nat → Nat → List (RunPlan × LocalRun) := fun _ _ => []

/-- Moves. -/
inductive EngineAct
  /-- a move of the engine, the clock or an API user -/
  | sys (a : SysAct)
  /-- `AstroRunner::run`, called by job task `i` of run `r`, returns: `past` and `envs` as in `startRun` -/
  | spawned (r i : Nat) (past : Nat → List RunnerContext) (envs : List (String × String))
  /-- a move of the `n`-th task the runner spawned for job task `i` of run `r`, or of its process -/
  | loc (r i n : Nat) (a : LocalAct)

/-- Moves of the engine's model that are the runner's. -/
def SysAct.byRunner : SysAct → Bool
  | .task _ _ (.refuse _) | .task _ _ .accept | .task _ _ (.push _) | .task _ _ (.endStream _) => true
  | _ => false

/-- The job task is reading the stream of the runner's task spawned last for it (execution_context/mod.rs:101-140). -/
def SysPc.reading : SysPc → Bool
  | .handling _ _ _ | .select _ _ _ _ | .emitting _ (.handling _ _ _) => true
  | _ => false

/-- Job task `i` of run `r`. -/
def Sys.jobTask (M : Sys) (r i : Nat) : Option SysTask := M.runs[r]?.bind fun ρ => ρ.tasks[i]?

/-- Change the tasks spawned for job task `i` of run `r`. -/
def updTasks (ts : Nat → Nat → List (RunPlan × LocalRun)) (r i : Nat) (f : List (RunPlan × LocalRun) → List (RunPlan × LocalRun)) :
    Nat → Nat → List (RunPlan × LocalRun) :=
  fun r' i' => if r' = r ∧ i' = i then f (ts r' i') else ts r' i'

/-- The engine has moved to `M`; its move `a` may have written the signal of the step job task `i` of run `r` is
executing. -/
def LocalEngine.shared (E : LocalEngine) (M : Sys) : SysAct → Nat → Nat → List (RunPlan × LocalRun)
  | .task r i _ =>
    match M.jobTask r i with
    | some t =>
      if t.pc.reading then
        updTasks E.tasks r i fun ts => ts.modify (ts.length - 1) fun x => (x.1, x.2.shareSignal t.sig)
      else E.tasks
    | none => E.tasks
  | _ => E.tasks

/-- The engine after a move of the runner's task that job task `i` of run `r` reads from (`w` as in `LocalRun.wrote`). -/
def Sys.absorb (M : Sys) (r i : Nat) (w : Option JobAct) : Sys :=
  match w with
  | some (.push l) => (M.step (.task r i (.push l))).getD M
  | some (.endStream x) => (M.step (.task r i (.endStream x))).getD M
  | _ => M

/-- One move. -/
def LocalEngine.step (E : LocalEngine) : EngineAct → Option LocalEngine
  | .sys a => if a.byRunner then none else (E.sys.step a).map fun M => { E with sys := M, tasks := E.shared M a }
  -- astro_runner.rs:39-70
  | .spawned r i past envs =>
    match (E.sys.jobTask r i).map SysTask.pc with
    | some (.calling st _ _) =>
      let x := startRun E.setup.os E.setup.arch E.setup.workingDirectory E.setup.plugins past E.mem
        { command := st.toCommand, event := E.setup.event r } envs
      (E.sys.step (.task r i .accept)).map fun M =>
        { E with
          sys := M
          mem := x.1
          tasks := updTasks E.tasks r i fun ts => ts ++ [(x.2, LocalRun.initial x.2 E.setup.plugins.length)] }
    | _ => none
  | .loc r i n a =>
    match (E.tasks r i)[n]?, a with
    | _, .setSignal _ => none
    | some (p, l), a =>
      (l.step a).map fun l' =>
        { E with
          sys := match (E.sys.jobTask r i).map SysTask.pc with
            | some pc => if pc.reading && n + 1 == (E.tasks r i).length then E.sys.absorb r i (l.wrote l') else E.sys
            | none => E.sys
          tasks := updTasks E.tasks r i fun ts => ts.set n (p, l') }
    | none, _ => none

/-- A new engine with a new runner. -/
def LocalEngine.initial (setup : EngineSetup) : LocalEngine := { setup := setup }

end AstroRun
