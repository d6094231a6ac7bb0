import Verif.Spec.System
import Verif.Spec.WorkflowEx

/-! # Concrete schedules of the engine -/

namespace AstroRun.SystemEx
open AstroRun

/-- A step. -/
def step (w : Id) : Step := { id := ⟨w, "a", 0⟩, run := "true", timeout := 3600 }

/-- One job with one step. -/
def single (w : Id) : Workflow :=
  { id := ⟨w⟩, jobs := [("a", { id := ⟨w, "a"⟩, steps := [step w], dependsOn := [] })] }

/-- Its configuration. -/
def config : UserWorkflow := { jobs := [("a", { steps := [.command { run := "true" }] })] }

/-- Run `r`: the main task up to its receive loop. -/
def open' (r : Nat) : List SysAct := [.main r (.check true), .main r .spawn, .main r .spawn]

/-- Run `r`, task 0: from its start until the step is queued. -/
def queue (r : Nat) (w : Id) : List SysAct :=
  [.task r 0 (.check true), .task r 0 .emit, .task r 0 .emit, .task r 0 .emit, .tick 1,
   .task r 0 (.nextStep true (step w)), .task r 0 .emit, .task r 0 .emit, .task r 0 .emit]

/-- Run `r`, task 0: the step runs, logs one line and succeeds. -/
def work (r : Nat) : List SysAct :=
  [.task r 0 .call, .task r 0 .accept, .task r 0 .emit, .task r 0 .emit, .task r 0 .enter,
   .task r 0 (.push ⟨.log, "hello"⟩), .task r 0 .recv, .task r 0 .emit, .task r 0 .emit, .task r 0 .enter,
   .task r 0 (.endStream .succeeded), .tick 1, .task r 0 .recv, .task r 0 .emit, .task r 0 .emit, .task r 0 .emit]

/-- Run `r`, task 0: the job ends and its result is delivered. -/
def finish (r : Nat) : List SysAct :=
  [.task r 0 .finishJob, .task r 0 .emit, .task r 0 .emit, .task r 0 .emit, .task r 0 .send]

/-- Run `r`: the main task receives and returns. -/
def close (r : Nat) : List SysAct := [.main r .recv, .main r .announce, .main r .complete]

/-- Two workflows at the same time. -/
def two : List SysAct :=
  [.start (single "v"), .start (single "w")] ++ open' 0 ++ open' 1 ++ queue 0 "v" ++ queue 1 "w" ++ work 0 ++
    finish 0 ++ work 1 ++ close 0 ++ finish 1 ++ close 1

/-- The same workflow twice at the same time: the first run's job completes while the second's step is queued. -/
def twice : List SysAct :=
  [.start (single "w"), .start (single "w")] ++ open' 0 ++ open' 1 ++ queue 0 "w" ++ queue 1 "w" ++ work 0 ++
    finish 0 ++ [.task 1 0 .call] ++ close 0

/-- The first of two workflows has done its step, the second one's step is being handed to the runner. -/
def half : List SysAct :=
  [.start (single "v"), .start (single "w")] ++ open' 0 ++ open' 1 ++ queue 0 "v" ++ queue 1 "w" ++ work 0 ++ [.task 1 0 .call]

/-- The state a schedule leads to. -/
def after (acts : List SysAct) : Sys := (runs Sys.step {} acts).getD {}

end AstroRun.SystemEx
