import Verif.Model.Job
import Verif.Model.Run
import Verif.Model.Signal
import Verif.Model.Stream

/-!
# Running a job: the concurrent machine

`Job::run` (crates/astro-run/src/workflow/job.rs:20-122) with `ExecutionContext::run`
(crates/astro-run/src/execution_context/mod.rs:25-196) inlined, as a machine whose moves interleave with those
of the runner (writing logs, ending the stream), of API users (`cancel_job`) and of the clock.

Simplifications.  Notifications that follow each other without an await point that depends on anything shared
are issued in one move.  A `select!` iteration is one move of whichever branch is ready; a branch that is not
ready cannot be taken (that this is what polls and wakers amount to is C106).  The
runner only reads the step signal.  If a before-step hook changes the job part of the step id the machine
panics (in the code it would use another running job's signal if there is one, otherwise panic).
-/

namespace AstroRun

/-- Where the task is. -/
inductive JobPc
  /-- before the job's own condition check (job.rs:21) -/
  | init
  /-- at the top of the step loop (job.rs:52) -/
  | next
  /-- step announced and queued (execution_context/mod.rs:47); `t0` is `started_at` -/
  | queued (s : Step) (t0 : Time)
  /-- inside `Runner::run` (58-67) -/
  | calling (s : Step) (t0 : Time)
  /-- between two iterations of the loop (108), e.g. in a log hook -/
  | handling (s : Step) (t0 : Time)
  /-- waiting in `select!` (109), the timer of this iteration expires at `deadline` -/
  | select (s : Step) (t0 : Time) (deadline : Time)
  /-- returned -/
  | finished (r : JobRunResult)
  /-- the task panicked (`expect("Missing job signal")`, 53) -/
  | panicked
  deriving DecidableEq, Repr

/-- The task and everything it shares. -/
structure JobM where
  job : Job
  now : Time := 0
  pc : JobPc := .init
  startedAt : Time := 0
  /-- steps not yet reached -/
  rest : List Step := []
  /-- notifications, results and `job_state` -/
  acc : JobAcc := ⟨[], [], .inProgress⟩
  /-- this job's entry in the signal manager -/
  jobSig : Option SigState := none
  /-- the current step's signal (56) -/
  sig : SigState := {}
  /-- the current step's log stream -/
  stream : StreamState := {}
  /-- answers given to `cancel_job` calls so far (`true` is `Ok`) -/
  answers : List Bool := []
  deriving DecidableEq, Repr

/-- Moves. -/
inductive JobAct
  /-- engine: check the job's condition, `is_match` answering `b` (if asked), and start or skip the job -/
  | check (b : Bool)
  /-- engine: next step; `is_match` answers `b` (if asked), the before-step hooks make it `s` -/
  | nextStep (b : Bool) (s : Step)
  /-- engine: all steps done -/
  | finishJob
  /-- engine: look up the job signal and call `Runner::run` -/
  | call
  /-- runner: `Runner::run` returns `Err` / `Ok` -/
  | refuse (e : Error)
  | accept
  /-- engine: start the next `select!` iteration -/
  | enter
  /-- engine: the timer / job signal / stream branch of `select!` -/
  | timer
  | jobSignal
  | recv
  /-- clock -/
  | tick (n : Nat)
  /-- runner: write a log entry, end the stream -/
  | push (l : Log)
  | endStream (r : RunResult)
  /-- API user: `cancel_job` for this job -/
  | cancel
  deriving DecidableEq, Repr

/-- execution_context/mod.rs:184-195 and 80-97, then job.rs:85-95: announce the end of a step, add its result. -/
def JobM.stepDone (m : JobM) (r : StepRunResult) : JobM :=
  { m with
    pc := .next
    acc := { trace := m.acc.trace ++ [.stepState r.id r.state, .stepCompleted r]
             results := m.acc.results ++ [r], state := nextJobState m.acc.state r } }

/-- Issue notifications. -/
def JobM.emit (m : JobM) (es : List Event) : JobM := { m with acc := { m.acc with trace := m.acc.trace ++ es } }

/-- One move; `none` if it is not possible. -/
def JobM.step (m : JobM) : JobAct → Option JobM
  -- job.rs:21-50
  | .check b =>
    match m.pc with
    | .init =>
      if shouldSkip m.job.on b then
        some { m.emit [.jobState m.job.id .skipped] with pc := .finished (skippedJobResult m.job.id) }
      else
        some { m with pc := .next, startedAt := m.now, rest := m.job.steps, jobSig := some {},
                      acc := JobAcc.start m.job.id }
    | _ => none
  -- job.rs:52-83, execution_context/mod.rs:26-47
  | .nextStep b s =>
    match m.pc, m.rest with
    | .next, st :: rest =>
      if stepSkipped m.acc.state st b then
        some { m with
          rest := rest
          acc := { m.acc with trace := m.acc.trace ++ [.stepState st.id .skipped]
                              results := m.acc.results ++ [skippedResult st.id] } }
      else
        some { m.emit [.runStep s, .stepState s.id .queued] with rest := rest, pc := .queued s m.now }
    | _, _ => none
  -- job.rs:98-121, execution_context/mod.rs:243-250
  | .finishJob =>
    match m.pc, m.rest with
    | .next, [] =>
      let (tr, r) := m.acc.finish m.job.id m.startedAt m.now
      some { m with pc := .finished r, acc := { m.acc with trace := tr }, jobSig := none }
    | _, _ => none
  -- execution_context/mod.rs:50-67
  | .call =>
    match m.pc with
    | .queued s t0 =>
      if s.id.jobId = m.job.id ∧ m.jobSig.isSome then
        some { m.emit [.runnerRun s.toCommand] with pc := .calling s t0, sig := {}, stream := {} }
      else some { m with pc := .panicked }
    | _ => none
  -- execution_context/mod.rs:70-98
  | .refuse _ =>
    match m.pc with
    | .calling s t0 => some (m.stepDone (refusedResult s.id t0 m.now))
    | _ => none
  -- execution_context/mod.rs:69, 101-106
  | .accept =>
    match m.pc with
    | .calling s t0 => some { m.emit [.stepState s.id .inProgress] with pc := .handling s t0 }
    | _ => none
  -- execution_context/mod.rs:108-111
  | .enter =>
    match m.pc with
    | .handling s t0 => some { m with pc := .select s t0 (m.now + s.timeout) }
    | _ => none
  -- execution_context/mod.rs:111-114
  | .timer =>
    match m.pc with
    | .select s t0 d =>
      if d ≤ m.now then some { m with pc := .handling s t0, sig := (m.sig.set .timeout).state } else none
    | _ => none
  -- execution_context/mod.rs:115-124
  | .jobSignal =>
    match m.pc, m.jobSig with
    | .select s t0 _, some js =>
      match js.poll 0 with
      | (js', some v) => some { m with pc := .handling s t0, jobSig := some js', sig := (m.sig.set v).state }
      | (_, none) => none
    | _, _ => none
  -- execution_context/mod.rs:125-138, 142-195
  | .recv =>
    match m.pc with
    | .select s t0 _ =>
      match m.stream.poll 0 with
      | (st', .item l) => some { m.emit [.log s.id l] with pc := .handling s t0, stream := st' }
      | (_, .eos) =>
        match m.stream.result with
        | some res => some (m.stepDone (stepResult s.id res t0 m.now))
        | none => some { m with pc := .panicked }
      | (_, .pending) => none
    | _ => none
  | .tick n => some { m with now := m.now + n }
  -- stream.rs:71-87
  | .push l =>
    match m.pc with
    | .calling _ _ | .handling _ _ | .select _ _ _ => some { m with stream := (m.stream.push l).1 }
    | _ => none
  -- stream.rs:106-118
  | .endStream r =>
    match m.pc with
    | .calling _ _ | .handling _ _ | .select _ _ _ => some { m with stream := (m.stream.endSeq r).1 }
    | _ => none
  -- signals/mod.rs:31-39
  | .cancel =>
    match m.jobSig with
    | none => some { m with answers := m.answers ++ [false] }
    | some js => some { m with jobSig := some (js.set .cancel).state, answers := m.answers ++ [(js.set .cancel).ok] }

/-- A job about to be run. -/
def JobM.initial (job : Job) (now : Time) : JobM := { job := job, now := now }

end AstroRun
