import Verif.Spec.Workflow
import Verif.Model.Config

/-! # Concrete workflows and schedules, used to show that hypotheses can be met -/

namespace AstroRun.WorkflowEx
open AstroRun

/-- A job with one step, after the given jobs, as the parser makes it. -/
def job (key : Id) (deps : List Id) : Job :=
  { id := ⟨"w", key⟩, steps := [{ id := ⟨"w", key, 0⟩, run := "true", timeout := 3600 }], dependsOn := deps }

/-- a; b → c; c → b -/
def cyclic : Workflow := { id := ⟨"w"⟩, jobs := [("c", job "c" ["b"]), ("b", job "b" ["c"]), ("a", job "a" [])] }

/-- build; test → build; deploy → test, build -/
def chain : Workflow :=
  { id := ⟨"w"⟩, jobs := [("deploy", job "deploy" ["test", "build"]), ("test", job "test" ["build"]),
      ("build", job "build" [])] }

/-- a; b; c → a -/
def twoRoots : Workflow := { id := ⟨"w"⟩, jobs := [("c", job "c" ["a"]), ("b", job "b" []), ("a", job "a" [])] }

/-- The configuration of `twoRoots`. -/
def twoRootsConfig : UserWorkflow :=
  { jobs := [("a", { steps := [.command { run := "true" }] }), ("b", { steps := [.command { run := "true" }] }),
      ("c", { steps := [.command { run := "true" }], dependsOn := some ["a"] })] }

/-- A workflow that runs on pushes only. -/
def guarded : Workflow := { chain with on := some (.event ["push"]) }

/-- Task `i` runs from start to finish: ten notifications, the return, the send. -/
def runTask (i : Nat) (env : JobEnv) : List WfAct :=
  [.begin i env, .emit i, .emit i, .emit i, .emit i, .emit i, .emit i, .emit i, .emit i, .emit i, .emit i,
    .emit i, .send i]

/-- Every step fails with exit code 2, after one log line. -/
def failing : JobEnv :=
  { startedAt := 3, completedAt := 5, step := fun _ => { outcome := .ended [] (.failed 2) } }

/-- `chain` run to its return, `build` failing. -/
def chainActs : List WfAct :=
  [.check true 1, .spawn, .spawn, .spawn, .spawn] ++ runTask 0 failing ++ [.recv 0] ++ runTask 1 {} ++ [.recv 0] ++
    runTask 2 {} ++ [.recv 9, .announce, .complete]

/-- `twoRoots`: `a` delivers, so `c` is started; before `c` does anything `b` delivers. -/
def twoRootsActs : List WfAct :=
  [.check true 1, .spawn, .spawn, .spawn, .spawn] ++ runTask 1 {} ++ [.recv 0] ++ runTask 0 {} ++ [.recv 0]

/-- `cyclic`: `a` delivers, then nothing is left to do. -/
def cyclicActs : List WfAct := [.check true 0, .spawn, .spawn, .spawn, .spawn] ++ runTask 0 {} ++ [.recv 1]

/-- The state a schedule leads to. -/
def after (wf : Workflow) (acts : List WfAct) : WfM := (runs WfM.step (WfM.initial wf) acts).getD (WfM.initial wf)

end AstroRun.WorkflowEx
