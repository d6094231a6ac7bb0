import Verif.Model.LocalEngine
import Verif.Spec.LocalStack
import Verif.Spec.Timing
import Verif.Spec.SystemCancel
import Verif.Spec.Job

/-! # Specification vocabulary: an engine on the local runner -/

namespace AstroRun.Spec
open AstroRun

/-- `E` is a state the schedule `acts` leads to. -/
def EngineReach (setup : EngineSetup) (acts : List EngineAct) (E : LocalEngine) : Prop :=
  runs LocalEngine.step (LocalEngine.initial setup) acts = some E

/-- The moves of the engine, its users and the clock in a schedule. -/
def engineMoves (acts : List EngineAct) : List SysAct := acts.filterMap fun | .sys a => some a | _ => none

/-- The runner as run `r` knows it. -/
def forRun (setup : EngineSetup) (r : Nat) : LocalSetup :=
  { os := setup.os, arch := setup.arch, workingDirectory := setup.workingDirectory, plugins := setup.plugins, event := setup.event r }

/-- One more notification, for `handedOver`. -/
def noteHandedOver (acc : List (Command × List Log)) : Event → List (Command × List Log)
  | .runnerRun c => acc ++ [(c, [])]
  | .log _ x => acc.modify (acc.length - 1) fun h => (h.1, h.2 ++ [x])
  | _ => acc

/-- What a job task reported of the steps it handed to the runner, in order: the command, and the log entries it showed
to observers before it handed over the next. -/
def handedOver (evs : List Event) : List (Command × List Log) := evs.foldl noteHandedOver []

/-- The results of steps that were executed. -/
def executedSteps (rs : List StepRunResult) : List StepRunResult := rs.filter fun r => !decide (r.state = .skipped)

/-- The job task is executing the step whose task is the `n`-th of the runner's for it. -/
def Busy (E : LocalEngine) (r i n : Nat) (st : Step) : Prop :=
  ∃ t, taskAt E.sys r i = some t ∧ t.pc.reading = true ∧ stepOf t.pc = some st ∧ n + 1 = (E.tasks r i).length

/-- What observers were shown of an executed step (`h`), the task that executed it (plan `p`, state `l`) and the result
stored for it (`res`) belong together: they are about the same step, the log shown is the one the task wrote, and the
result is the one called for by what the task saw of its process, or by the signal that stopped it. -/
def SameStep (cfg : LocalSetup) (h : Command × List Log) (p : RunPlan) (l : LocalRun) (res : StepRunResult) : Prop :=
  ∃ st : Step, h = (st.toCommand, l.stream.logs) ∧ PlanFor cfg st p ∧ res.id = st.id ∧
    Reports (expectedResult l.exitSeen l.sigSeen) res ∧
    (∀ c, l.exitSeen = some c → ∃ ch, l.child = some ch ∧ ch.exit = some c) ∧
    (∀ v, l.sigSeen = some v → l.sig.signal = some v)

/-- `hs`, `ts` and `rs` are about the same steps, in the same order. -/
def SameSteps (cfg : LocalSetup) (hs : List (Command × List Log)) (ts : List (RunPlan × LocalRun)) (rs : List StepRunResult) : Prop :=
  hs.length = ts.length ∧ rs.length = ts.length ∧
  ∀ (n : Nat) (h : Command × List Log) (p : RunPlan) (l : LocalRun) (res : StepRunResult), hs[n]? = some h → ts[n]? = some (p, l) →
    rs[n]? = some res → SameStep cfg h p l res

/-- The before-step hooks leave the job part of step ids alone (as `HooksKeepJobs`). -/
def EngineHooksKeepJobs (setup : EngineSetup) (acts : List EngineAct) : Prop :=
  ∀ pre r i b s post, acts = pre ++ EngineAct.sys (.task r i (.nextStep b s)) :: post → ∀ E, EngineReach setup pre E →
    ∀ t, taskAt E.sys r i = some t → s.id.jobId = t.job.id

/-- Nothing that works for run `r` can move: neither its main task and job tasks, nor the runner, nor the runner's tasks
(but for failures of the operating system). -/
structure RunStuck (E : LocalEngine) (r : Nat) : Prop where
  engine : ∀ a, ofRun r a → E.step (.sys a) = none
  runner : ∀ i past envs, E.step (.spawned r i past envs) = none
  tasks : ∀ i n a, a.own = true → isFailure a = false → E.step (.loc r i n a) = none

/-- The process of a runner's task runs no longer, was told to stop with `docker kill`, or waiting for it has failed. -/
def Accounted (p : RunPlan) (l : LocalRun) : Prop :=
  l.child = none ∨ (∃ ch c, l.child = some ch ∧ ch.exit = some c) ∨ l.kills = ["docker kill " ++ p.dirs.dockerName] ∨
  l.exitSeen = none ∧ l.sigSeen = none ∧ l.stream.result = some (.failed 1)

end AstroRun.Spec
