import Verif.Model.Job
import Verif.Model.Run
import Verif.Model.Signal
import Verif.Model.SignalManager
import Verif.Model.Stream
import Verif.Model.Workflow

/-!
# The whole engine

One `AstroRun` (crates/astro-run/src/astro_run.rs:7-14) running any number of workflows at the same time: every
workflow has its main task (workflow/mod.rs:28-151) and one task per `run_job` call (153-161); all of them share the
engine's signal manager (astro_run.rs:26-29) and the clock.  A schedule is any interleaving of the moves of the main tasks,
the job tasks, the runner (logs and results of steps), API users (`run`, `cancel_job`) and the clock.

Simplifications.  Every notification is one move; which hooks it calls is in `Verif.Model.Plugin`.  A `select!`
iteration is one move of a branch that is ready.  The clock does not run backwards.  `cancel_job` is one move (its two
critical sections are split in `Verif.Model.SignalManager`).  The first two notifications of a workflow, during which its
other tasks do not exist yet, are one move.
-/

namespace AstroRun

/-- Where a job task is. -/
inductive SysPc
  /-- not polled yet (job.rs:21) -/
  | init
  /-- still has to issue the notifications `es`, then goes on at `k` -/
  | emitting (es : List Event) (k : SysPc)
  /-- at the top of the step loop (job.rs:52) -/
  | next
  /-- step announced and queued (execution_context/mod.rs:50); `t0` is `started_at` -/
  | queued (s : Step) (t0 : Time)
  /-- inside `Runner::run` (58-67); `ref` is `job_signal` -/
  | calling (s : Step) (t0 : Time) (ref : Nat)
  /-- between two iterations of the loop (108) -/
  | handling (s : Step) (t0 : Time) (ref : Nat)
  /-- waiting in `select!` (109), the timer of this iteration expires at `deadline` -/
  | select (s : Step) (t0 : Time) (deadline : Time) (ref : Nat)
  /-- `Job::run` returned `r`, which is to be sent (workflow/mod.rs:157) -/
  | finished (r : JobRunResult)
  /-- result sent or given up (workflow/mod.rs:157-159) -/
  | sent (r : JobRunResult)
  /-- `expect("Missing job signal")` failed for step `s` (execution_context/mod.rs:50-54) -/
  | panicked (s : Step)
  deriving DecidableEq, Repr

/-- A task spawned by `run_job` (workflow/mod.rs:153-161) with the local variables of `Job::run` and
`ExecutionContext::run`. -/
structure SysTask where
  key : Id
  job : Job
  pc : SysPc := .init
  startedAt : Time := 0
  /-- steps not yet reached -/
  rest : List Step := []
  /-- step results so far -/
  results : List StepRunResult := []
  /-- `job_state` -/
  state : WorkflowState := .inProgress
  /-- the current step's signal (execution_context/mod.rs:56) -/
  sig : SigState := {}
  /-- the current step's log stream -/
  stream : StreamState := {}
  /-- notifications issued so far (not in the code, for stating properties only) -/
  evs : List Event := []
  deriving DecidableEq, Repr

/-- One call of `Workflow::run`: the main task's variables (as in `WfM`), its channel and its tasks. -/
structure SysRun where
  wf : Workflow
  pc : WfPc := .init
  startedAt : Time := 0
  state : WorkflowState := .inProgress
  waiting : List (Id × Job) := []
  results : AMap Id JobRunResult := []
  chan : List WfMsg := []
  tasks : List SysTask := []
  trace : List (Option Nat × Event) := []
  received : List WfMsg := []
  deriving DecidableEq, Repr

/-- The engine. -/
structure Sys where
  now : Time := 0
  /-- `signal_manager` (astro_run.rs:13) -/
  mgr : SigMgr := {}
  runs : List SysRun := []
  /-- answers of `cancel_job` so far (`true` is `Ok`; not in the code, for stating properties only) -/
  answers : List (JobId × Bool) := []
  deriving DecidableEq, Repr

/-- Moves of a main task. -/
inductive MainAct
  | check (b : Bool)
  | spawn
  | recv
  | announce
  | complete
  deriving DecidableEq, Repr

/-- Moves of a job task, and of the runner for its current step. -/
inductive TaskAct
  /-- check the job's condition, `is_match` answering `b` (if asked) -/
  | check (b : Bool)
  /-- issue the next notification -/
  | emit
  /-- next step: `is_match` answers `b` (if asked), the before-step hooks make it `s` -/
  | nextStep (b : Bool) (s : Step)
  /-- all steps done -/
  | finishJob
  /-- look up the job signal and call `Runner::run` -/
  | call
  | refuse (e : Error)
  | accept
  | enter
  | timer
  | jobSignal
  | recv
  | send
  /-- runner: write a log entry, end the stream -/
  | push (l : Log)
  | endStream (r : RunResult)
  deriving DecidableEq, Repr

/-- Moves of the engine and its surroundings. -/
inductive SysAct
  /-- API user: `workflow.run(ctx)` -/
  | start (wf : Workflow)
  | main (r : Nat) (a : MainAct)
  | task (r i : Nat) (a : TaskAct)
  | tick (n : Nat)
  /-- API user: `cancel_job` -/
  | cancel (j : JobId)
  deriving DecidableEq, Repr

/-! ## Job tasks -/

/-- The task must issue `es` and then goes on at `k`. -/
def SysTask.emitThen (t : SysTask) (es : List Event) (k : SysPc) : SysTask := { t with pc := .emitting es k }

/-- execution_context/mod.rs:184-195 and 80-97, then job.rs:85-95: a step ended with `r`. -/
def SysTask.stepDone (t : SysTask) (r : StepRunResult) : SysTask :=
  { t.emitThen [.stepState r.id r.state, .stepCompleted r] .next with
    results := t.results ++ [r], state := nextJobState t.state r }

/-- job.rs:98-121: the job's result. -/
def SysTask.finalResult (t : SysTask) (now : Time) : JobRunResult :=
  { id := t.job.id, state := if t.state.isInProgress then .succeeded else t.state,
    startedAt := some t.startedAt, completedAt := some now, steps := t.results }

/-- The runner of the current step may still write to its stream. -/
def SysPc.runnerActive : SysPc → Bool
  | .calling _ _ _ | .handling _ _ _ | .select _ _ _ _ => true
  | .emitting _ (.handling _ _ _) => true
  | _ => false

/-- Moves of a job task that touch nothing shared. -/
def SysTask.step (now : Time) (t : SysTask) : TaskAct → Option SysTask
  -- job.rs:21-50
  | .check b =>
    match t.pc with
    | .init =>
      if shouldSkip t.job.on b then
        some (t.emitThen [.jobState t.job.id .skipped] (.finished (skippedJobResult t.job.id)))
      else
        some { t.emitThen [.runJob t.job.id, .jobState t.job.id .inProgress] .next with
          startedAt := now, rest := t.job.steps, results := [], state := .inProgress }
    | _ => none
  -- job.rs:52-83, execution_context/mod.rs:26-47
  | .nextStep b s =>
    match t.pc, t.rest with
    | .next, st :: rest =>
      if stepSkipped t.state st b then
        some { t.emitThen [.stepState st.id .skipped] .next with
          rest := rest, results := t.results ++ [skippedResult st.id] }
      else some { t.emitThen [.runStep s, .stepState s.id .queued] (.queued s now) with rest := rest }
    | _, _ => none
  -- job.rs:98-121
  | .finishJob =>
    match t.pc, t.rest with
    | .next, [] =>
      let r := t.finalResult now
      some (t.emitThen [.jobState t.job.id r.state, .jobCompleted r] (.finished r))
    | _, _ => none
  -- execution_context/mod.rs:70-98
  | .refuse _ =>
    match t.pc with
    | .calling s t0 _ => some (t.stepDone (refusedResult s.id t0 now))
    | _ => none
  -- execution_context/mod.rs:69, 101-106
  | .accept =>
    match t.pc with
    | .calling s t0 ref => some (t.emitThen [.stepState s.id .inProgress] (.handling s t0 ref))
    | _ => none
  -- execution_context/mod.rs:108-111
  | .enter =>
    match t.pc with
    | .handling s t0 ref => some { t with pc := .select s t0 (now + s.timeout) ref }
    | _ => none
  -- execution_context/mod.rs:111-114
  | .timer =>
    match t.pc with
    | .select s t0 d ref =>
      if d ≤ now then some { t with pc := .handling s t0 ref, sig := (t.sig.set .timeout).state } else none
    | _ => none
  -- execution_context/mod.rs:125-138, 142-195
  | .recv =>
    match t.pc with
    | .select s t0 _ ref =>
      match t.stream.poll 0 with
      | (st', .item l) => some { t.emitThen [.log s.id l] (.handling s t0 ref) with stream := st' }
      | (_, .eos) =>
        match t.stream.result with
        | some res => some (t.stepDone (stepResult s.id res t0 now))
        | none => none  -- unreachable: the stream only ends with a result
      | (_, .pending) => none
    | _ => none
  -- stream.rs:71-87
  | .push l => if t.pc.runnerActive then some { t with stream := (t.stream.push l).1 } else none
  -- stream.rs:106-118
  | .endStream r => if t.pc.runnerActive then some { t with stream := (t.stream.endSeq r).1 } else none
  -- the others touch shared state
  | _ => none

/-! ## Main tasks: as `WfM`, with the tasks of this model -/

/-- crates/astro-run/src/workflow/mod.rs:153-161 (`run_job`) -/
def SysRun.runJob (ρ : SysRun) (e : Id × Job) : SysRun := { ρ with tasks := ρ.tasks ++ [{ key := e.1, job := e.2 }] }

/-- crates/astro-run/src/workflow/mod.rs:61-82: one job of the initial loop. -/
def SysRun.setupJob (ρ : SysRun) (e : Id × Job) : SysRun :=
  if e.2.dependsOn.isEmpty then ρ.runJob e
  else { ρ with
    state := if e.2.dependsOn.all (fun d => ρ.wf.jobs.any (fun x => x.1 == d)) then ρ.state else .failed
    waiting := ρ.waiting ++ [e] }

/-- crates/astro-run/src/workflow/mod.rs:104-119: run every waiting job whose dependencies have results. -/
def SysRun.rescan (ρ : SysRun) : SysRun :=
  (ρ.waiting.filter fun e => !e.2.dependsOn.isEmpty && allFinished ρ.results e.2).foldl SysRun.runJob ρ

/-- crates/astro-run/src/workflow/mod.rs:90-97: book a received result. -/
def SysRun.book (ρ : SysRun) (msg : WfMsg) : SysRun :=
  { ρ with
    state := nextWfState ρ.state msg.result
    waiting := ρ.waiting.filter fun e => !(e.1 == msg.key)
    results := ρ.results.insert msg.key msg.result
    received := ρ.received ++ [msg] }

/-- crates/astro-run/src/workflow/mod.rs:89-120: handle one received message. -/
def SysRun.handle (ρ : SysRun) (msg : WfMsg) (now : Time) : SysRun :=
  let ρ := ρ.book msg
  if ρ.results.length = ρ.wf.jobs.length then
    { ρ with pc := .finishing now, state := if ρ.state = .inProgress then .succeeded else ρ.state }
  else ρ.rescan

/-- crates/astro-run/src/workflow/mod.rs:28-151 -/
def SysRun.main (now : Time) (ρ : SysRun) : MainAct → Option SysRun
  -- workflow/mod.rs:29-59
  | .check b =>
    match ρ.pc with
    | .init =>
      if shouldSkip ρ.wf.on b then
        some { ρ with
          pc := .returned (skippedWfResult ρ.wf.id)
          trace := ρ.trace ++ [(none, .workflowState ρ.wf.id .skipped)] }
      else
        some { ρ with
          pc := .setup ρ.wf.jobs, startedAt := now, state := .inProgress
          trace := ρ.trace ++ [(none, .runWorkflow ρ.wf.id), (none, .workflowState ρ.wf.id .inProgress)] }
    | _ => none
  -- workflow/mod.rs:61-86
  | .spawn =>
    match ρ.pc with
    | .setup [] => some { ρ with pc := .loop }
    | .setup (e :: rest) => some { ρ.setupJob e with pc := .setup rest }
    | _ => none
  -- workflow/mod.rs:89-120
  | .recv =>
    match ρ.pc, ρ.chan with
    | .loop, msg :: chan => some ({ ρ with chan := chan }.handle msg now)
    | _, _ => none
  -- workflow/mod.rs:129-146
  | .announce =>
    match ρ.pc with
    | .finishing t =>
      some { ρ with
        pc := .completing { id := ρ.wf.id, state := ρ.state, startedAt := some ρ.startedAt,
                            completedAt := some t, jobs := ρ.results }
        trace := ρ.trace ++ [(none, .workflowState ρ.wf.id ρ.state)] }
    | _ => none
  -- workflow/mod.rs:148-151
  | .complete =>
    match ρ.pc with
    | .completing r => some { ρ with pc := .returned r, trace := ρ.trace ++ [(none, .workflowCompleted r)] }
    | _ => none

/-! ## The engine -/

/-- Replace task `i` of a run. -/
def SysRun.setTask (ρ : SysRun) (i : Nat) (t : SysTask) : SysRun := { ρ with tasks := ρ.tasks.set i t }

/-- Task `i` issues notification `e`. -/
def SysRun.emit (ρ : SysRun) (i : Nat) (t : SysTask) (e : Event) : SysRun :=
  { ρ.setTask i { t with evs := t.evs ++ [e] } with trace := ρ.trace ++ [(some i, e)] }

/-- What issuing a notification does to the signal manager, just before the hooks run: execution_context/mod.rs:219-221
(`call_on_run_job`) and 244 (`call_on_job_completed`). -/
def SigMgr.noted (g : SigMgr) : Event → SigMgr
  | .runJob id => g.register id
  | .jobCompleted r => g.unregister r.id
  | _ => g

/-- Moves of a job task that involve its run or the signal manager. -/
def Sys.taskStep (g : SigMgr) (ρ : SysRun) (now : Time) (i : Nat) (t : SysTask) : TaskAct → Option (SigMgr × SysRun)
  -- every `call_on_*`
  | .emit =>
    match t.pc with
    | .emitting [] k => some (g, ρ.setTask i { t with pc := k })
    | .emitting (e :: es) k => some (g.noted e, ρ.emit i { t with pc := .emitting es k } e)
    | _ => none
  -- execution_context/mod.rs:50-67
  | .call =>
    match t.pc with
    | .queued s t0 =>
      match g.getSignal s.id.jobId with
      | some ref => some (g, ρ.emit i { t with pc := .calling s t0 ref, sig := {}, stream := {} } (.runnerRun s.toCommand))
      | none => some (g, ρ.setTask i { t with pc := .panicked s })
    | _ => none
  -- execution_context/mod.rs:115-124
  | .jobSignal =>
    match t.pc with
    | .select s t0 _ ref =>
      match g.heap[ref]? with
      | some js =>
        match js.poll 0 with
        | (js', some v) =>
          some ({ g with heap := g.heap.set ref js' },
            ρ.setTask i { t with pc := .handling s t0 ref, sig := (t.sig.set v).state })
        | (_, none) => none
      | none => none
    | _ => none
  -- workflow/mod.rs:157-159; a send fails (and the task ends) when the receiver is gone
  | .send =>
    match t.pc with
    | .finished r =>
      match ρ.pc with
      | .returned _ => some (g, ρ.setTask i { t with pc := .sent r })
      | _ =>
        if ρ.chan.length < chanCap then
          some (g, { ρ.setTask i { t with pc := .sent r } with chan := ρ.chan ++ [⟨i, t.key, r⟩] })
        else none
    | _ => none
  | a => (t.step now a).map fun t' => (g, ρ.setTask i t')

/-- One move of the engine; `none` if it is not possible. -/
def Sys.step (M : Sys) : SysAct → Option Sys
  -- workflow/mod.rs:28
  | .start wf => some { M with runs := M.runs ++ [{ wf := wf }] }
  | .main r a => do
    let ρ ← M.runs[r]?
    let ρ' ← ρ.main M.now a
    return { M with runs := M.runs.set r ρ' }
  | .task r i a => do
    let ρ ← M.runs[r]?
    let t ← ρ.tasks[i]?
    let (g', ρ') ← Sys.taskStep M.mgr ρ M.now i t a
    return { M with mgr := g', runs := M.runs.set r ρ' }
  | .tick n => some { M with now := M.now + n }
  -- signals/mod.rs:31-39
  | .cancel j =>
    let (g, a) := M.mgr.cancelJob j
    some { M with mgr := g, answers := M.answers ++ [(j, match a with | .ok _ => true | .error _ => false)] }

end AstroRun
