import Verif.Model.Job
import Verif.Model.Map
import Verif.Model.Run

/-!
# Running a workflow

`Workflow::run` (crates/astro-run/src/workflow/mod.rs:28-151) as a machine: the main task, one task per
`run_job` call, the bounded result channel, and the table of running jobs.  A schedule is any interleaving of
the moves.

Simplifications.  What the surroundings will decide about a job run (`JobEnv`) is fixed when the task starts;
its notifications are then issued one per move, so tasks interleave at every notification.  (Every run of
the concurrent job machine is such a run: `C14_every_schedule_is_sequential`.)  `on_run_workflow` and the
first workflow state, during which no other task exists, are one move.  The table of running jobs is the key
set of the `SignalManager`; the signals themselves are in `Verif.Model.JobMachine`.  Log output is left out.
-/

namespace AstroRun

/-- A task spawned by `run_job`. -/
inductive TaskPc
  /-- not polled yet -/
  | spawned
  /-- inside `Job::run` which will still issue `todo` and then return `r` -/
  | running (todo : List Event) (r : JobRunResult)
  /-- `Job::run` returned, sending `r` (workflow/mod.rs:157) -/
  | sending (r : JobRunResult)
  /-- finished -/
  | done
  /-- panicked: `expect("Missing job signal")`, execution_context/mod.rs:50-54 -/
  | panicked
  deriving DecidableEq, Repr

/-- crates/astro-run/src/workflow/mod.rs:153-161 -/
structure WfTask where
  key : Id
  job : Job
  pc : TaskPc := .spawned
  deriving DecidableEq, Repr

/-- crates/astro-run/src/workflow/mod.rs:15-16; `sender` is the position of the sending task (not in the code,
for stating properties only). -/
structure WfMsg where
  sender : Nat
  key : Id
  result : JobRunResult
  deriving DecidableEq, Repr

/-- Where the main task is. -/
inductive WfPc
  /-- before the condition check (29) -/
  | init
  /-- in the loop over the jobs (61), `rest` still to come -/
  | setup (rest : List (Id × Job))
  /-- at `receiver.recv()` (89) -/
  | loop
  /-- after the loop (122) -/
  | finishing (completedAt : Time)
  /-- before `on_workflow_completed` (148) -/
  | completing (r : WorkflowRunResult)
  /-- returned, channel dropped -/
  | returned (r : WorkflowRunResult)
  deriving DecidableEq, Repr

/-- The main task, its local variables, and everything shared. -/
structure WfM where
  wf : Workflow
  pc : WfPc := .init
  startedAt : Time := 0
  /-- `workflow_state` -/
  state : WorkflowState := .inProgress
  /-- `waiting_jobs` -/
  waiting : List (Id × Job) := []
  /-- `job_results` -/
  results : AMap Id JobRunResult := []
  /-- the channel's buffer, oldest first -/
  chan : List WfMsg := []
  /-- all tasks ever spawned -/
  tasks : List WfTask := []
  /-- keys of the signal manager -/
  registry : List JobId := []
  /-- the notifications, with the position of the task issuing it (`none`: the main task) -/
  trace : List (Option Nat × Event) := []
  /-- all messages received so far (not in the code, for stating properties only) -/
  received : List WfMsg := []
  deriving DecidableEq, Repr

/-- Moves. -/
inductive WfAct
  /-- main: condition check answered `b` (if asked), then start or skip -/
  | check (b : Bool) (now : Time)
  /-- main: next iteration of the loop over the jobs, or leave it -/
  | spawn
  /-- main: receive a message and handle it; `now` is used if it is the last one -/
  | recv (now : Time)
  /-- main: announce the final state -/
  | announce
  /-- main: announce completion and return -/
  | complete
  /-- task `i` starts; the surroundings will decide as `env` says -/
  | begin (i : Nat) (env : JobEnv)
  /-- task `i` issues its next notification, or returns from `Job::run` -/
  | emit (i : Nat)
  /-- task `i` sends its result -/
  | send (i : Nat)

/-- The channel's capacity (workflow/mod.rs:56). -/
def chanCap : Nat := 10

/-- crates/astro-run/src/workflow/mod.rs:153-161 (`run_job`): spawn a task. -/
def WfM.runJob (m : WfM) (e : Id × Job) : WfM := { m with tasks := m.tasks ++ [{ key := e.1, job := e.2 }] }

/-- crates/astro-run/src/workflow/mod.rs:107-113: every dependency has a result. -/
def allFinished (results : AMap Id JobRunResult) (job : Job) : Bool :=
  job.dependsOn.all fun d => results.contains d

/-- crates/astro-run/src/workflow/mod.rs:90-94 -/
def nextWfState (st : WorkflowState) (r : JobRunResult) : WorkflowState :=
  if r.state = .failed then .failed else if r.state = .cancelled then .cancelled else st

/-- crates/astro-run/src/workflow/mod.rs:61-82: one job of the initial loop. -/
def WfM.setupJob (m : WfM) (e : Id × Job) : WfM :=
  if e.2.dependsOn.isEmpty then m.runJob e
  else { m with
    state := if e.2.dependsOn.all (fun d => m.wf.jobs.any (fun x => x.1 == d)) then m.state else .failed
    waiting := m.waiting ++ [e] }

/-- crates/astro-run/src/workflow/mod.rs:104-119: run every waiting job whose dependencies have results. -/
def WfM.rescan (m : WfM) : WfM :=
  (m.waiting.filter fun e => !e.2.dependsOn.isEmpty && allFinished m.results e.2).foldl WfM.runJob m

/-- crates/astro-run/src/workflow/mod.rs:90-97: book a received result. -/
def WfM.book (m : WfM) (msg : WfMsg) : WfM :=
  { m with
    state := nextWfState m.state msg.result
    waiting := m.waiting.filter fun e => !(e.1 == msg.key)
    results := m.results.insert msg.key msg.result
    received := m.received ++ [msg] }

/-- crates/astro-run/src/workflow/mod.rs:89-120: handle one received message. -/
def WfM.handle (m : WfM) (msg : WfMsg) (now : Time) : WfM :=
  let m := m.book msg
  if m.results.length = m.wf.jobs.length then
    { m with pc := .finishing now, state := if m.state = .inProgress then .succeeded else m.state }
  else m.rescan

/-- crates/astro-run/src/workflow/mod.rs:36-42 -/
def skippedWfResult (id : WorkflowId) : WorkflowRunResult :=
  { id := id, state := .skipped, startedAt := none, completedAt := none, jobs := [] }

/-- Effect of a notification on the table of running jobs: execution_context/mod.rs:219-221 and 244. -/
def updateRegistry (reg : List JobId) : Event → List JobId
  | .runJob id => id :: reg
  | .jobCompleted r => reg.filter fun j => !decide (j = r.id)
  | _ => reg

/-- execution_context/mod.rs:50-54: a step can only be run while its job is in the table. -/
def canIssue (reg : List JobId) : Event → Bool
  | .runnerRun c => decide (c.id.jobId ∈ reg)
  | _ => true

/-- Change the state of task `i`. -/
def WfM.setTask (m : WfM) (i : Nat) (pc : TaskPc) : WfM :=
  { m with tasks := m.tasks.modify i fun t => { t with pc := pc } }

/-- One move; `none` if it is not possible. -/
def WfM.step (m : WfM) : WfAct → Option WfM
  -- workflow/mod.rs:29-59
  | .check b now =>
    match m.pc with
    | .init =>
      if shouldSkip m.wf.on b then
        some { m with
          pc := .returned (skippedWfResult m.wf.id)
          trace := m.trace ++ [(none, .workflowState m.wf.id .skipped)] }
      else
        some { m with
          pc := .setup m.wf.jobs, startedAt := now, state := .inProgress
          trace := m.trace ++ [(none, .runWorkflow m.wf.id), (none, .workflowState m.wf.id .inProgress)] }
    | _ => none
  -- workflow/mod.rs:61-86
  | .spawn =>
    match m.pc with
    | .setup [] => some { m with pc := .loop }
    | .setup (e :: rest) => some { m.setupJob e with pc := .setup rest }
    | _ => none
  -- workflow/mod.rs:89-120
  | .recv now =>
    match m.pc, m.chan with
    | .loop, msg :: chan => some ({ m with chan := chan }.handle msg now)
    | _, _ => none
  -- workflow/mod.rs:129-146
  | .announce =>
    match m.pc with
    | .finishing t =>
      some { m with
        pc := .completing { id := m.wf.id, state := m.state, startedAt := some m.startedAt,
                            completedAt := some t, jobs := m.results }
        trace := m.trace ++ [(none, .workflowState m.wf.id m.state)] }
    | _ => none
  -- workflow/mod.rs:148-151
  | .complete =>
    match m.pc with
    | .completing r => some { m with pc := .returned r, trace := m.trace ++ [(none, .workflowCompleted r)] }
    | _ => none
  -- workflow/mod.rs:154-155
  | .begin i env =>
    match m.tasks[i]? with
    | some ⟨_, job, .spawned⟩ => some (m.setTask i (.running (jobRun env job).1 (jobRun env job).2))
    | _ => none
  -- job.rs:20-122
  | .emit i =>
    match m.tasks[i]? with
    | some ⟨_, _, .running [] r⟩ => some (m.setTask i (.sending r))
    | some ⟨_, _, .running (e :: todo) r⟩ =>
      if canIssue m.registry e then
        some { m.setTask i (.running todo r) with
          registry := updateRegistry m.registry e
          trace := m.trace ++ [(some i, e)] }
      else some (m.setTask i .panicked)
    | _ => none
  -- workflow/mod.rs:157-159; a send fails (and the task ends) when the receiver is gone
  | .send i =>
    match m.tasks[i]? with
    | some ⟨key, _, .sending r⟩ =>
      match m.pc with
      | .returned _ => some (m.setTask i .done)
      | _ =>
        if m.chan.length < chanCap then
          some { m.setTask i .done with chan := m.chan ++ [⟨i, key, r⟩] }
        else none
    | _ => none

/-- A workflow about to be run. -/
def WfM.initial (wf : Workflow) : WfM := { wf := wf }

end AstroRun
