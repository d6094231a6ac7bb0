import Verif.Model.Types
import Verif.Model.Map
import Verif.Model.Run

/-!
# The default scheduler

crates/scheduler/src/default.rs and lib.rs.  `schedule` takes the lock three times (56, 153, 80), so calls of
several tasks interleave there; a call in progress is a `SchedCall`.  Log output is left out; `i32` counters are
`Int` (2^31 running steps are not considered).
-/

namespace AstroRun

/-- crates/scheduler/src/lib.rs:7-16 -/
structure RunnerMeta where
  id : Id
  os : String := "linux"
  arch : String := "x86_64"
  supportDocker : Bool := true
  supportHost : Bool := true
  version : String := ""
  maxRuns : Int := 1
  deriving DecidableEq, Repr, Inhabited

/-- crates/scheduler/src/default.rs:7-14 -/
structure SchedState where
  runsCount : AMap Id Int := []
  jobRunners : AMap JobId Id := []
  stepRunners : AMap StepId Id := []
  deriving DecidableEq, Repr

/-- `name.starts_with("host/")`: crates/scheduler/src/default.rs:52 and 139. -/
def isHostName (name : String) : Bool := "host/".toList.isPrefixOf name.toList

/-- crates/scheduler/src/default.rs:49-53 -/
def runsOnHost (c : Command) : Bool := (c.container.map fun o => isHostName o.name).getD false

/-- crates/scheduler/src/default.rs:58-74: the runner the job used last, if offered (and, for a host step, if
its platform fits).  The grouping of `&&` and `||` is that of the code. -/
def findPinned (runners : List RunnerMeta) (c : Command) (last : Id) : Option RunnerMeta :=
  runners.find? fun r =>
    if r.id = last then
      match c.container with
      | some o =>
        if isHostName o.name then
          (r.supportHost && o.name == "host/" ++ r.os) || o.name == "host/" ++ r.os ++ "-" ++ r.arch
        else true
      | none => true
    else false

/-- `Iterator::min_by_key`: the first of the smallest elements. -/
def minByKey {α : Type} (key : α → Int) : List α → Option α
  | [] => none
  | x :: xs => some (xs.foldl (fun m y => if key y < key m then y else m) x)

/-- crates/scheduler/src/default.rs:149-160 -/
def pickDockerRunner (counts : AMap Id Int) (runners : List RunnerMeta) : Option RunnerMeta :=
  minByKey (fun r => (counts.get? r.id).getD 0) (runners.filter fun r => r.supportDocker)

/-- crates/scheduler/src/default.rs:162-170 -/
def pickHostRunner (runners : List RunnerMeta) (name : String) : Option RunnerMeta :=
  (runners.filter fun r => r.supportHost).find? fun r =>
    name == "host/" ++ r.os || name == "host/" ++ r.os ++ "-" ++ r.arch

/-- crates/scheduler/src/default.rs:132-147 -/
def pickRunner (counts : AMap Id Int) (runners : List RunnerMeta) (c : Command) : Option RunnerMeta :=
  match c.container with
  | some o => if isHostName o.name then pickHostRunner runners o.name else pickDockerRunner counts runners
  | none => pickDockerRunner counts runners

/-- crates/scheduler/src/default.rs:79-94: book a chosen runner. -/
def SchedState.commit (s : SchedState) (c : Command) (r : RunnerMeta) : SchedState :=
  { stepRunners := s.stepRunners.insert c.id r.id
    runsCount := s.runsCount.insert r.id ((s.runsCount.get? r.id).getD 0 + 1)
    jobRunners := if runsOnHost c then s.jobRunners else s.jobRunners.insert c.id.jobId r.id }

/-- crates/scheduler/src/default.rs:103-121 (`on_step_completed`) -/
def SchedState.stepCompleted (s : SchedState) (id : StepId) : SchedState :=
  let s1 := match s.stepRunners.get? id with
    | some r =>
      -- entry(..).and_modify(|c| *c -= 1).or_insert(0)
      let n := match s.runsCount.get? r with
        | some c => c - 1
        | none => 0
      { s with runsCount := if n ≤ 0 then s.runsCount.erase r else s.runsCount.insert r n }
    | none => s
  { s1 with stepRunners := s1.stepRunners.erase id }

/-- crates/scheduler/src/default.rs:123-128 (`on_job_completed`) -/
def SchedState.jobCompleted (s : SchedState) (id : JobId) : SchedState :=
  { s with jobRunners := s.jobRunners.erase id }

/-- crates/scheduler/src/default.rs:41-101 (`schedule`) when no other call interleaves. -/
def SchedState.schedule (s : SchedState) (runners : List RunnerMeta) (c : Command) :
    SchedState × Option RunnerMeta :=
  let r := match (s.jobRunners.get? c.id.jobId).bind (findPinned runners c) with
    | some r => some r
    | none => pickRunner s.runsCount runners c
  match r with
  | some r => (s.commit c r, some r)
  | none => (s, none)

/-- Where a `schedule` call is. -/
inductive SchedPc
  /-- before reading `job_runners` (56) -/
  | asked
  /-- no runner from before; before reading `runs_count` (77) -/
  | picking
  /-- decided; before booking (80) -/
  | decided (r : Option RunnerMeta)
  /-- returned -/
  | done (r : Option RunnerMeta)
  deriving DecidableEq, Repr

/-- A `schedule` call. -/
structure SchedCall where
  runners : List RunnerMeta
  cmd : Command
  pc : SchedPc := .asked
  deriving DecidableEq, Repr

/-- What happened, for stating properties. -/
inductive SchedEvent
  | scheduled (c : Command) (r : RunnerMeta)
  | stepDone (id : StepId)
  | jobDone (id : JobId)
  deriving DecidableEq, Repr

/-- The scheduler, the calls made so far, and what happened. -/
structure SchedM where
  st : SchedState := {}
  calls : List SchedCall := []
  trace : List SchedEvent := []
  deriving DecidableEq, Repr

/-- Moves. -/
inductive SchedAct
  /-- somebody calls `schedule` -/
  | call (runners : List RunnerMeta) (c : Command)
  | lookup (i : Nat)
  | pick (i : Nat)
  | commit (i : Nat)
  | stepDone (id : StepId)
  | jobDone (id : JobId)

/-- Change the state of call `i`. -/
def SchedM.setCall (m : SchedM) (i : Nat) (pc : SchedPc) : SchedM :=
  { m with calls := m.calls.modify i fun c => { c with pc := pc } }

/-- One move. -/
def SchedM.step (m : SchedM) : SchedAct → Option SchedM
  | .call rs c => some { m with calls := m.calls ++ [{ runners := rs, cmd := c }] }
  -- default.rs:56-75
  | .lookup i =>
    match m.calls[i]? with
    | some ⟨rs, c, .asked⟩ =>
      match (m.st.jobRunners.get? c.id.jobId).bind (findPinned rs c) with
      | some r => some (m.setCall i (.decided (some r)))
      | none => some (m.setCall i .picking)
    | _ => none
  -- default.rs:76-78
  | .pick i =>
    match m.calls[i]? with
    | some ⟨rs, c, .picking⟩ => some (m.setCall i (.decided (pickRunner m.st.runsCount rs c)))
    | _ => none
  -- default.rs:79-101
  | .commit i =>
    match m.calls[i]? with
    | some ⟨_, _, .decided none⟩ => some (m.setCall i (.done none))
    | some ⟨_, c, .decided (some r)⟩ =>
      some { m.setCall i (.done (some r)) with
        st := m.st.commit c r
        trace := m.trace ++ [.scheduled c r] }
    | _ => none
  | .stepDone id => some { m with st := m.st.stepCompleted id, trace := m.trace ++ [.stepDone id] }
  | .jobDone id => some { m with st := m.st.jobCompleted id, trace := m.trace ++ [.jobDone id] }

end AstroRun
