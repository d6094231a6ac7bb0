import Mathlib.Data.List.Forall2
import Verif.Spec.Config
import Verif.Spec.Parser
import Verif.Spec.FairLocal
import Verif.Spec.FairRemote

/-! # Specification vocabulary: what becomes of a configuration -/

namespace AstroRun.Spec
open AstroRun

/-- Job `j` is what the job `uj`, configured under the key `k` in a workflow with id `id`, stands for: its steps are the commands of
the configured steps, actions replaced by what they expand to, numbered in order. -/
structure JobMeans (env : ParseEnv) (id k : Id) (uj : UserJob) (j : Job) : Prop where
  ident : j.id = ⟨id, k⟩
  name : j.name = uj.name
  on : j.on = uj.on
  steps : ∃ (r : UserActionStep → ActionSteps) (cmds : List UserCommandStep),
    (∀ a, .action a ∈ uj.steps → ∃ act, Provides env a act ∧ act a = .ok (r a)) ∧
    expansion r uj.steps = cmds.map .command ∧ List.Forall₂ (StepOf env uj.container) cmds j.steps
  ids : ∀ (n : Nat) (s : Step), j.steps[n]? = some s → s.id = ⟨id, k, n⟩

/-- Run `ρ` has carried out the configuration `w` and returned `res`.  `ran i jr` is what is to be said about the runner's part in job
task `i` with the result `jr`. -/
structure CarriedOut (env : ParseEnv) (id : Id) (w : UserWorkflow) (ran : Nat → JobRunResult → Prop) (ρ : SysRun) (res : WorkflowRunResult) :
    Prop where
  ident : res.id = ⟨id⟩
  over : Over res.state
  /-- one result for every configured job … -/
  keys : (res.jobs.map Prod.fst).Perm (w.jobs.map Prod.fst)
  /-- … which is that of a complete run of what was configured … -/
  jobs : ∀ k jr, (k, jr) ∈ res.jobs → ∃ uj j i, (k, uj) ∈ w.jobs ∧ JobMeans env id k uj j ∧ RunsJob ρ i k ∧
    CompleteRun j (eventsOf i ρ.trace) jr ∧ ran i jr
  /-- … that began only after complete runs of the jobs it waits for -/
  order : ∀ k uj d i, (k, uj) ∈ w.jobs → d ∈ deps uj → RunsJob ρ i k → ∀ pre e post, ρ.trace = pre ++ (some i, e) :: post →
    ∃ uj' j' i' jr, (d, uj') ∈ w.jobs ∧ JobMeans env id d uj' j' ∧ RunsJob ρ i' d ∧ CompleteRun j' (eventsOf i' pre) jr
  /-- success means that nothing failed or was cancelled, anything else happened to some job -/
  good : res.state = .succeeded → ∀ k jr, (k, jr) ∈ res.jobs → jr.state ≠ .failed ∧ jr.state ≠ .cancelled
  bad : res.state ≠ .succeeded → ∃ k uj j i jr, (k, uj) ∈ w.jobs ∧ JobMeans env id k uj j ∧ RunsJob ρ i k ∧
    CompleteRun j (eventsOf i ρ.trace) jr ∧ jr.state = res.state
  announced : mainEvents ρ.trace = [.runWorkflow ⟨id⟩, .workflowState ⟨id⟩ .inProgress, .workflowState ⟨id⟩ res.state, .workflowCompleted res]

/-- Run `ρ` has left out the configuration `w`, which has a condition, and returned `res`. -/
structure LeftOut (id : Id) (w : UserWorkflow) (ρ : SysRun) (res : WorkflowRunResult) : Prop where
  conditional : w.on ≠ none
  result : res = { id := ⟨id⟩, state := .skipped, startedAt := none, completedAt := none, jobs := [] }
  trace : ρ.trace = [(none, .workflowState ⟨id⟩ .skipped)]

/-- The number of the run started by the next `start`. -/
def nextRun (moves : List SysAct) : Nat := (started moves).length

/-- Everybody who works for run `r` of an engine on the local runner does so from time to time, and its processes end. -/
structure FairLocalRun (f : Nat → LocalEngine) (a : Nat → EngineAct) (r : Nat) : Prop where
  main : WeaklyFair LocalEngine.step f a (engineMainOf r)
  job : ∀ i, WeaklyFair LocalEngine.step f a (engineJobOf r i)
  recv : ∀ i, StronglyFair LocalEngine.step f a (engineRecvOf r i)
  task : ∀ i n, WeaklyFair LocalEngine.step f a (runnerTaskOf r i n)
  processes : ProcessesEnd f r

/-- Everybody who works for run `r` of an engine on the remote runner does so from time to time, the runners on the servers end, and
broken connections are noticed. -/
structure FairRemoteRun (f : Nat → RemoteEngine) (a : Nat → RemoteEngineAct) (r : Nat) : Prop where
  main : WeaklyFair RemoteEngine.step f a (remoteMainOf r)
  job : ∀ i, WeaklyFair RemoteEngine.step f a (remoteJobOf r i)
  recv : ∀ i, StronglyFair RemoteEngine.step f a (remoteRecvOf r i)
  call : ∀ i n, WeaklyFair RemoteEngine.step f a (callOf r i n)
  noticed : BreaksNoticed f r
  servers : ServersEnd f a r

/-- As `FairLocalRun`, but the processes of the run need not end: it is enough that each writes finitely much and that time passes. -/
structure FairSilentLocalRun (f : Nat → LocalEngine) (a : Nat → EngineAct) (r : Nat) : Prop where
  main : WeaklyFair LocalEngine.step f a (engineMainOf r)
  job : ∀ i, WeaklyFair LocalEngine.step f a (engineJobOf r i)
  recv : ∀ i, StronglyFair LocalEngine.step f a (engineRecvOf r i)
  timer : ∀ i, WeaklyFair LocalEngine.step f a (engineTimerOf r i)
  task : ∀ i n, WeaklyFair LocalEngine.step f a (runnerTaskOf r i n)
  time : TimePasses f
  processes : ProcessesFallSilent a r

/-- As `FairRemoteRun`, but the runners on the servers need not end of their own: it is enough that each writes finitely much and
obeys signals, and that time passes. -/
structure FairSilentRemoteRun (f : Nat → RemoteEngine) (a : Nat → RemoteEngineAct) (r : Nat) : Prop where
  main : WeaklyFair RemoteEngine.step f a (remoteMainOf r)
  job : ∀ i, WeaklyFair RemoteEngine.step f a (remoteJobOf r i)
  recv : ∀ i, StronglyFair RemoteEngine.step f a (remoteRecvOf r i)
  timer : ∀ i, WeaklyFair RemoteEngine.step f a (remoteTimerOf r i)
  call : ∀ i n, WeaklyFair RemoteEngine.step f a (callOf r i n)
  client : ∀ i n, WeaklyFair RemoteEngine.step f a (clientOf r i n)
  noticed : BreaksNoticed f r
  time : RemoteTimePasses f
  silent : ServersFallSilent a r
  obey : ServersObey f a r

/-- Every job configured with dependencies waits for every other job or is waited for by it, directly or not. -/
def InOneLine (w : UserWorkflow) : Prop :=
  ∀ k uj, (k, uj) ∈ w.jobs → deps uj ≠ [] → ∀ x uj', (x, uj') ∈ w.jobs → x ≠ k →
    Relation.TransGen (WaitsFor w) k x ∨ Relation.TransGen (WaitsFor w) x k

end AstroRun.Spec
