import Verif.Model.JobMachine
import Verif.Model.LocalRun

/-!
# A job of an engine whose runner is the local runner

`AstroRunner` (crates/runner/src/astro_runner.rs) is the engine's `Runner`: the job machine (`JobM`) calls
`Runner::run`, which spawns a task (`LocalRun`) and returns a stream.  Engine and task share two things: the step's
signal, which is cloned into the context (crates/astro-run/src/execution_context/mod.rs:56-66), and the state of
the stream.  Simplification: each side keeps its own copy of the two; a move that writes one of them writes both copies.
-/

namespace AstroRun

/-- The runner (astro_runner.rs:17-22) and the event of the execution context. -/
structure LocalSetup where
  os : String
  arch : String
  workingDirectory : String
  plugins : List RunnerPlugin := []
  event : Option TriggerEvent := none

/-- The job and all tasks the runner has spawned for it, in order. -/
structure LocalStack where
  setup : LocalSetup
  eng : JobM
  mem : RunnerMem := {}
  tasks : List (RunPlan × LocalRun) := []

/-- Moves. -/
inductive StackAct
  /-- a move of the engine, the clock or an API user -/
  | eng (a : JobAct)
  /-- `AstroRunner::run`, called by the engine, returns: `past` and `envs` as in `startRun` -/
  | spawned (past : Nat → List RunnerContext) (envs : List (String × String))
  /-- a move of task `i` or of its process -/
  | loc (i : Nat) (a : LocalAct)
  /-- other jobs use the same runner: what its plugins and itself remember becomes `mem` (astro_runner.rs:17-37).
  Simplification: anything at all. -/
  | others (mem : RunnerMem)

/-- Moves of the job machine that are the runner's. -/
def JobAct.byRunner : JobAct → Bool
  | .refuse _ | .accept | .push _ | .endStream _ => true
  | _ => false

/-- The engine is reading the stream of the task spawned last (execution_context/mod.rs:108-140). -/
def JobPc.reading : JobPc → Bool
  | .handling _ _ | .select _ _ _ => true
  | _ => false

/-- The step's signal, as the runner's task sees it after a move of the engine. -/
def LocalRun.shareSignal (l : LocalRun) (sig : SigState) : LocalRun :=
  match sig.signal with
  | some v => { l with sig := (l.sig.set v).state }
  | none => l

/-- What a move from `l` to `l'` wrote to the stream. -/
def LocalRun.wrote (l l' : LocalRun) : Option JobAct :=
  if l'.stream.logs ≠ l.stream.logs then l'.stream.logs.getLast?.map .push
  else if l'.stream.result ≠ l.stream.result then l'.stream.result.map .endStream
  else none

/-- The engine after a move of the task it reads from. -/
def JobM.absorb (m : JobM) (w : Option JobAct) : JobM :=
  match w with
  | some a => (m.step a).getD m
  | none => m

/-- One move. -/
def LocalStack.step (s : LocalStack) : StackAct → Option LocalStack
  | .eng a =>
    if a.byRunner then none
    else (s.eng.step a).map fun m =>
      { s with
        eng := m
        tasks := if m.pc.reading then s.tasks.modify (s.tasks.length - 1) fun t => (t.1, t.2.shareSignal m.sig)
          else s.tasks }
  -- astro_runner.rs:39-70
  | .spawned past envs =>
    match s.eng.pc with
    | .calling st _ =>
      let r := startRun s.setup.os s.setup.arch s.setup.workingDirectory s.setup.plugins past s.mem
        { command := st.toCommand, event := s.setup.event } envs
      (s.eng.step .accept).map fun m =>
        { s with
          eng := m
          mem := r.1
          tasks := s.tasks ++ [(r.2, LocalRun.initial r.2 s.setup.plugins.length)] }
    | _ => none
  | .loc i a =>
    match s.tasks[i]?, a with
    | _, .setSignal _ => none
    | some (p, l), a =>
      (l.step a).map fun l' =>
        { s with
          eng := if s.eng.pc.reading && i + 1 == s.tasks.length then s.eng.absorb (l.wrote l') else s.eng
          tasks := s.tasks.set i (p, l') }
    | none, _ => none
  | .others mem => some { s with mem := mem }

/-- The job before it runs. -/
def LocalStack.initial (setup : LocalSetup) (job : Job) (now : Time) : LocalStack :=
  { setup := setup, eng := JobM.initial job now }

end AstroRun
