import Verif.Spec.SystemCancel
import Verif.Spec.JobMachine

/-! # Specification vocabulary: one job run of a busy engine, seen alone -/

namespace AstroRun.Spec
open AstroRun

/-- What a move of a job run of the engine is for the job itself; announcing what has been decided, and delivering the
result to the workflow, is nothing. -/
def jobMove : TaskAct → Option JobAct
  | .check b => some (.check b)
  | .nextStep b s => some (.nextStep b s)
  | .finishJob => some .finishJob
  | .call => some .call
  | .refuse e => some (.refuse e)
  | .accept => some .accept
  | .enter => some .enter
  | .timer => some .timer
  | .jobSignal => some .jobSignal
  | .recv => some .recv
  | .push l => some (.push l)
  | .endStream r => some (.endStream r)
  | .emit | .send => none

/-- The moves of job run `i` of run `r`, and of the runner for it. -/
def jobMoves (r i : Nat) (acts : List SysAct) : List JobAct :=
  acts.filterMap fun
    | .task r' i' a => if r' = r ∧ i' = i then jobMove a else none
    | _ => none

/-- Everything in a job's schedule but the clock and the calls of `cancel_job`. -/
def ownMoves (ja : List JobAct) : List JobAct :=
  ja.filter fun
    | .tick _ | .cancel => false
    | _ => true

/-- The answers to calls of `cancel_job` with job `j`. -/
def answersFor (j : JobId) (M : Sys) : List Bool := (M.answers.filter fun p => p.1 = j).map Prod.snd

/-- Where the job run is, in terms of the job alone. -/
inductive SamePlace : SysPc → JobPc → Prop
  | init : SamePlace .init .init
  | next : SamePlace .next .next
  | queued (s : Step) (t0 : Time) : SamePlace (.queued s t0) (.queued s t0)
  | calling (s : Step) (t0 : Time) (ref : Nat) : SamePlace (.calling s t0 ref) (.calling s t0)
  | handling (s : Step) (t0 : Time) (ref : Nat) : SamePlace (.handling s t0 ref) (.handling s t0)
  | select (s : Step) (t0 d : Time) (ref : Nat) : SamePlace (.select s t0 d ref) (.select s t0 d)
  | finished (r : JobRunResult) : SamePlace (.finished r) (.finished r)
  | sent (r : JobRunResult) : SamePlace (.sent r) (.finished r)

/-- Job run `t` of the engine and the job `m` that is alone in the world agree on everything. -/
structure SameJob (M : Sys) (t : SysTask) (m : JobM) : Prop where
  job : m.job = t.job
  place : SamePlace t.pc m.pc
  /-- notifications -/
  events : m.acc.trace = t.evs
  /-- results of the steps so far -/
  results : m.acc.results = t.results
  state : m.acc.state = t.state
  rest : m.rest = t.rest
  startedAt : m.startedAt = t.startedAt
  clock : m.now = M.now
  /-- the signal and the stream of the current step -/
  signal : m.sig = t.sig
  stream : m.stream = t.stream
  answers : m.answers = answersFor t.job.id M

/-- No other job run has announced the job of job run `i` of run `r`. -/
def NoOther (M : Sys) (j : JobId) (r i : Nat) : Prop := ∀ r' i', Announced M j r' i' → r' = r ∧ i' = i

end AstroRun.Spec
