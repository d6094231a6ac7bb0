import Verif.Model.Scheduler

/-! # Specification vocabulary: scheduling histories -/

namespace AstroRun.Spec
open AstroRun

/-- `m` is a state that the history `acts`, of any number of overlapping calls, leads to. -/
def SchedReach (acts : List SchedAct) (m : SchedM) : Prop := runs SchedM.step {} acts = some m

/-- The container a step asks for names a host platform. -/
def WantsHost (c : Command) (name : String) : Prop :=
  ∃ o, c.container = some o ∧ o.name = name ∧ ∃ rest, name = "host/" ++ rest

/-- The step runs in docker. -/
def WantsDocker (c : Command) : Prop := ¬ ∃ name, WantsHost c name

/-- `name` is the host platform of runner `r`. -/
def PlatformOf (r : RunnerMeta) (name : String) : Prop :=
  name = "host/" ++ r.os ∨ name = "host/" ++ r.os ++ "-" ++ r.arch

/-- Runner `r` can execute the step. -/
def CanRun (r : RunnerMeta) (c : Command) : Prop :=
  (∀ name, WantsHost c name → r.supportHost = true ∧ PlatformOf r name) ∧
  (WantsDocker c → r.supportDocker = true)

/-- The steps that are running after a history, and the runner each was last given to. -/
def running : List SchedEvent → List (StepId × Id)
  | [] => []
  | e :: tr => match e with
    -- newest first
    | .scheduled c r => (c.id, r.id) :: (running tr).filter fun p => !decide (p.1 = c.id)
    | .stepDone id => (running tr).filter fun p => !decide (p.1 = id)
    | .jobDone _ => running tr

/-- The number of steps running on runner `r` after the history `tr`. -/
def load (tr : List SchedEvent) (r : Id) : Nat := ((running tr.reverse).filter fun p => decide (p.2 = r)).length

/-- No step is scheduled again while it is running. -/
def NoReschedule (tr : List SchedEvent) : Prop :=
  ∀ pre c r post, tr = pre ++ .scheduled c r :: post → ∀ q, (c.id, q) ∉ running pre.reverse

/-- Job `j`'s last docker step in this history went to the runner with id `rid`, and the job has not completed
since. -/
def LastDocker (tr : List SchedEvent) (j : JobId) (rid : Id) : Prop :=
  ∃ pre c r post, tr = pre ++ .scheduled c r :: post ∧ WantsDocker c ∧ c.id.jobId = j ∧ r.id = rid ∧
    (∀ c' r', .scheduled c' r' ∈ post → WantsDocker c' → c'.id.jobId ≠ j) ∧ .jobDone j ∉ post

/-- An id always comes with the same capabilities, in all lists of runners ever offered. -/
def StableRunners (m : SchedM) : Prop :=
  ∀ c ∈ m.calls, ∀ c' ∈ m.calls, ∀ r ∈ c.runners, ∀ r' ∈ c'.runners, r.id = r'.id →
    r.supportDocker = r'.supportDocker

/-! ## Spreading work -/

/-- This event gives a step to the runner with id `r`. -/
def givesTo (r : Id) : SchedEvent → Bool
  | .scheduled _ q => decide (q.id = r)
  | _ => false

/-- How many steps the runner with id `r` has been given. -/
def given (tr : List SchedEvent) (r : Id) : Nat := tr.countP (givesTo r)

/-- The call has not returned. -/
def inProgress (c : SchedCall) : Bool :=
  match c.pc with
  | .done _ => false
  | _ => true

/-- Never more than `k` calls of `schedule` at a time. -/
def AtMostAtOnce (k : Nat) (acts : List SchedAct) : Prop :=
  ∀ pre post m, acts = pre ++ post → SchedReach pre m → m.calls.countP inProgress ≤ k

/-- The job whose step this call is for. -/
def askedFor : SchedAct → Option JobId
  | .call _ c => some c.id.jobId
  | _ => none

/-- Everybody offers the same runners, all steps run in docker, every job asks once, and nobody reports that a step has completed (the
remote client never does, C52). -/
structure OneShot (rs : List RunnerMeta) (acts : List SchedAct) : Prop where
  same : ∀ rs' c, .call rs' c ∈ acts → rs' = rs ∧ WantsDocker c
  once : (acts.filterMap askedFor).Nodup
  silent : ∀ id, .stepDone id ∉ acts

end AstroRun.Spec
