import Verif.Spec.System
import Verif.Spec.SystemEx

/-! # Specification vocabulary: time stamps -/

namespace AstroRun.Spec
open AstroRun

/-- Something skipped has no stamps; anything else has both, in order, and within `a … b`. -/
def Stamped (a b : Time) (state : WorkflowState) (start stop : Option Time) : Prop :=
  (state = .skipped ∧ start = none ∧ stop = none) ∨
  (state ≠ .skipped ∧ ∃ x y, start = some x ∧ stop = some y ∧ a ≤ x ∧ x ≤ y ∧ y ≤ b)

/-- Of two steps with stamps the earlier one in the list stopped before the later one started. -/
def InSequence (rs : List StepRunResult) : Prop :=
  rs.Pairwise fun r r' => ∀ x y, r.completedAt = some x → r'.startedAt = some y → x ≤ y

/-- The stamps of a job result: the job within `a … b`, its steps within the job and one after the other. -/
structure JobStamps (a b : Time) (r : JobRunResult) : Prop where
  own : Stamped a b r.state r.startedAt r.completedAt
  skipped : r.state = .skipped → r.steps = []
  steps : ∀ x y, r.startedAt = some x → r.completedAt = some y →
    (∀ s ∈ r.steps, Stamped x y s.state s.startedAt s.completedAt) ∧ InSequence r.steps

/-- The stamps of a workflow result: none at all if it was skipped, otherwise the jobs are within the workflow. -/
def WorkflowStamps (now : Time) (res : WorkflowRunResult) : Prop :=
  (res.state = .skipped ∧ res.startedAt = none ∧ res.completedAt = none ∧ res.jobs = []) ∨
  res.state ≠ .skipped ∧ ∃ a b, res.startedAt = some a ∧ res.completedAt = some b ∧ a ≤ b ∧ b ≤ now ∧
    ∀ k jr, (k, jr) ∈ res.jobs → JobStamps a b jr

/-- Task `i` of run `r`. -/
def taskAt (M : Sys) (r i : Nat) : Option SysTask := M.runs[r]?.bind fun ρ => ρ.tasks[i]?

end AstroRun.Spec

namespace AstroRun.TimingEx
open AstroRun

/-- A step of job `k`. -/
def step (k : Id) : Step := { id := ⟨"w", k, 0⟩, run := "true", timeout := 3600 }

/-- A job with one step. -/
def job (k : Id) (deps : List Id) : Job := { id := ⟨"w", k⟩, steps := [step k], dependsOn := deps }

/-- a; b; c → a; e → c -/
def wf : Workflow :=
  { id := ⟨"w"⟩, jobs := [("e", job "e" ["c"]), ("c", job "c" ["a"]), ("b", job "b" []), ("a", job "a" [])] }

/-- Its configuration. -/
def config : UserWorkflow :=
  { jobs := [("a", { steps := [.command { run := "true" }] }), ("b", { steps := [.command { run := "true" }] }),
      ("c", { steps := [.command { run := "true" }], dependsOn := some ["a"] }),
      ("e", { steps := [.command { run := "true" }], dependsOn := some ["c"] })] }

/-- Task `i` of run 0, a run of job `k`: until its step is with the runner. -/
def first (i : Nat) (k : Id) : List SysAct :=
  [.task 0 i (.check true), .task 0 i .emit, .task 0 i .emit, .task 0 i .emit, .task 0 i (.nextStep true (step k)),
   .task 0 i .emit, .task 0 i .emit, .task 0 i .emit, .task 0 i .call]

/-- The runner refuses the step, the job ends and delivers. -/
def second (i : Nat) : List SysAct :=
  [.task 0 i (.refuse default), .task 0 i .emit, .task 0 i .emit, .task 0 i .emit, .task 0 i .finishJob, .task 0 i .emit,
   .task 0 i .emit, .task 0 i .emit, .task 0 i .send, .main 0 .recv]

/-- `c` is started twice (tasks 2 and 3); the first run delivers, `e` starts; then the second run of `c` delivers. -/
def again : List SysAct :=
  [.start wf, .main 0 (.check true), .main 0 .spawn, .main 0 .spawn, .main 0 .spawn, .main 0 .spawn, .main 0 .spawn] ++
  first 1 "a" ++ second 1 ++ first 0 "b" ++ second 0 ++ first 2 "c" ++ first 3 "c" ++ second 2 ++ first 4 "e" ++
  [.tick 5] ++ second 3 ++ second 4 ++ [.main 0 .announce, .main 0 .complete]

/-- `c` after `a` -/
def chainWf : Workflow := { id := ⟨"w"⟩, jobs := [("c", job "c" ["a"]), ("a", job "a" [])] }

/-- A run of it, up to the point where `c` is about to go on to its step. -/
def chainHead : List SysAct :=
  [.start chainWf, .main 0 (.check true), .main 0 .spawn, .main 0 .spawn, .main 0 .spawn] ++
  first 0 "a" ++ [.tick 2] ++ second 0 ++ [.tick 1] ++ [.task 0 1 (.check true), .task 0 1 .emit, .task 0 1 .emit, .task 0 1 .emit]

/-- From there to the end. -/
def chainTail : List SysAct :=
  [.task 0 1 .emit, .task 0 1 .emit, .task 0 1 .emit, .task 0 1 .call, .tick 4] ++ second 1 ++ [.main 0 .announce, .main 0 .complete]

/-- The whole run. -/
def chain : List SysAct := chainHead ++ .task 0 1 (.nextStep true (step "c")) :: chainTail

end AstroRun.TimingEx
