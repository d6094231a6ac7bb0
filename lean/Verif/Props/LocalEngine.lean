import Verif.Lemmas.LocalEngineMore
import Verif.Props.Timing
import Verif.Props.System
import Verif.Props.Parser

/-! # C100–C103: a whole engine on the local runner

Schedules are arbitrary interleavings of any number of runs of workflows, all their job tasks, users of the API, the clock,
the local runner, all tasks it has spawned and their processes, including every failure of the operating system. -/

namespace AstroRun
open Spec

namespace EngineEx
/-- A runner without plugins on a Linux machine. -/
def setup : EngineSetup := { os := "linux", arch := "x86_64", workingDirectory := "/srv" }

/-- Two workflows are started; both have a step to hand over to the runner. -/
def head : List EngineAct :=
  ([.start (SystemEx.single "v"), .start (SystemEx.single "w")] ++ SystemEx.open' 0 ++ SystemEx.open' 1 ++ SystemEx.queue 0 "v" ++
    SystemEx.queue 1 "w" ++ [.task 0 0 .call, .task 1 0 .call] : List SysAct).map .sys

/-- The runner takes the step of job task `i` of run `r`, whose container starts. -/
def begin (r i : Nat) : List EngineAct :=
  [.spawned r i (fun _ => []) [], .sys (.task r i .emit), .sys (.task r i .emit), .sys (.task r i .enter), .loc r i 0 .begin_,
    .loc r i 0 .mkdirOk, .loc r i 0 .entryOk, .loc r i 0 .spawnOk]

/-- The container writes a line, which is shown; a second one is not shown yet. -/
def talk (r i : Nat) : List EngineAct :=
  [.loc r i 0 (.childOut "a"), .loc r i 0 .readOut, .sys (.task r i .recv), .sys (.task r i .emit), .sys (.task r i .emit),
    .sys (.task r i .enter)]

/-- The container exits with `c`, and the step ends. -/
def stop (r i : Nat) (c : Int) : List EngineAct :=
  [.loc r i 0 (.exit (some c)), .loc r i 0 .closeOut, .loc r i 0 .closeErr, .loc r i 0 .readErr, .loc r i 0 .waitOk,
    .sys (.task r i .recv), .sys (.task r i .emit), .sys (.task r i .emit), .sys (.task r i .emit)]

/-- The job ends and its result is delivered. -/
def deliver (r i : Nat) : List EngineAct :=
  ([.task r i .finishJob, .task r i .emit, .task r i .emit, .task r i .emit, .task r i .send, .main r .recv] : List SysAct).map .sys

/-- The first workflow runs to its end; the second one's container has written a line nobody was shown. -/
def two : List EngineAct :=
  head ++ begin 0 0 ++ begin 1 0 ++ talk 1 0 ++ talk 0 0 ++ stop 0 0 3 ++ [.loc 1 0 0 (.childOut "b"), .loc 1 0 0 .readOut] ++ deliver 0 0 ++
    [.sys (.main 0 .announce), .sys (.main 0 .complete)]

/-- The state a schedule leads to. -/
def after (acts : List EngineAct) : LocalEngine :=
  (runs LocalEngine.step (LocalEngine.initial setup) acts).getD (LocalEngine.initial setup)

/-- The first workflow's job is cancelled; the second one's container goes on. -/
def cancelOne : List EngineAct :=
  head ++ begin 0 0 ++ begin 1 0 ++ talk 1 0 ++
    [.sys (.cancel ⟨"v", "a"⟩), .sys (.task 0 0 .jobSignal), .loc 0 0 0 .sigReady, .sys (.task 0 0 .enter), .loc 0 0 0 .killDone,
      .sys (.task 0 0 .recv), .sys (.task 0 0 .emit), .sys (.task 0 0 .emit), .sys (.task 0 0 .emit)] ++ deliver 0 0 ++
    [.sys (.main 0 .announce), .sys (.main 0 .complete)]

/-- a; b; c → a -/
def wf : Workflow :=
  { id := ⟨"w"⟩, jobs := [("c", TimingEx.job "c" ["a"]), ("b", TimingEx.job "b" []), ("a", TimingEx.job "a" [])] }

/-- Its configuration. -/
def config : UserWorkflow :=
  { jobs := [("a", { steps := [.command { run := "true" }] }), ("b", { steps := [.command { run := "true" }] }),
      ("c", { steps := [.command { run := "true" }], dependsOn := some ["a"] })] }

/-- Job task `i` of run 0, running job `k`, up to its container. -/
def upTo (i : Nat) (k : Id) : List EngineAct := (TimingEx.first i k).map .sys ++ begin 0 i

/-- `c` is started twice (tasks 2 and 3), and the run returns with the result of the first while the container of the
second is running. -/
def again : List EngineAct :=
  ([.start wf, .main 0 (.check true), .main 0 .spawn, .main 0 .spawn, .main 0 .spawn, .main 0 .spawn] : List SysAct).map .sys ++
  upTo 1 "a" ++ stop 0 1 0 ++ deliver 0 1 ++ upTo 0 "b" ++ stop 0 0 0 ++ deliver 0 0 ++ upTo 2 "c" ++ upTo 3 "c" ++ stop 0 2 0 ++
  deliver 0 2 ++ [.sys (.main 0 .announce), .sys (.main 0 .complete)]
end EngineEx

/-! ## C100: every step ends when, and as, its process ended -/

/-- **C100** Whatever happens, the engine does what it does with any runner, and each task of the runner what it does for any
engine: every theorem about engines (`SysReach`) and about executions by the local runner (`LocalReach`) holds of the two
together. -/
theorem C100_both_views (setup : EngineSetup) (acts : List EngineAct) (E : LocalEngine) (h : EngineReach setup acts E) :
    (∃ sa, SysReach sa E.sys ∧ sa.filter (fun a => !a.byRunner) = engineMoves acts) ∧
    ∀ (r i n : Nat) (p : RunPlan) (l : LocalRun), (E.tasks r i)[n]? = some (p, l) → ∃ la, LocalReach p setup.plugins.length la l := by
  have hi := engineInv_reach h
  refine ⟨hi.sys, fun r i n p l hl => ?_⟩
  have hp := hi.pairs r i
  cases ht : taskAt E.sys r i with
  | none =>
    rw [ht] at hp
    have : E.tasks r i = [] := hp
    rw [this] at hl
    simp at hl
  | some t =>
    rw [ht] at hp
    have hp : PairInv (forRun setup r) t (E.tasks r i) := hp
    exact hp.reach n p l hl

/-- **C100** When a job run has its result, the steps it announced to the runner, the tasks the runner spawned for it and
the results of the steps that were not skipped correspond one to one and in order; of each such step observers
were shown exactly the log its task wrote, and the result stored is the one called for by the exit status of its process
or by the signal that stopped it. -/
theorem C100_job (setup : EngineSetup) (acts : List EngineAct) (E : LocalEngine) (h : EngineReach setup acts E) (r i : Nat)
    (ρ : SysRun) (hr : E.sys.runs[r]? = some ρ) (t : SysTask) (ht : ρ.tasks[i]? = some t) (jr : JobRunResult)
    (ha : SysTask.answer t = some jr) :
    SameSteps (forRun setup r) (handedOver (eventsOf i ρ.trace)) (E.tasks r i) (executedSteps jr.steps) := job_done h hr ht ha

/-- **C100** The same for every job in the result of a workflow. -/
theorem C100_workflow (setup : EngineSetup) (acts : List EngineAct) (E : LocalEngine) (h : EngineReach setup acts E) (r : Nat)
    (ρ : SysRun) (hr : E.sys.runs[r]? = some ρ) (res : WorkflowRunResult) (hp : ρ.pc = .returned res) (k : Id) (jr : JobRunResult)
    (hk : (k, jr) ∈ res.jobs) :
    ∃ i, RunsJob ρ i k ∧
      SameSteps (forRun setup r) (handedOver (eventsOf i ρ.trace)) (E.tasks r i) (executedSteps jr.steps) := by
  obtain ⟨sa, hsa, _⟩ := (engineInv_reach h).sys
  obtain ⟨i, t, h1, h2, h3⟩ := result_task hsa hr hp hk
  exact ⟨i, ⟨t, h1, h2⟩, job_done h hr h1 h3⟩

/-- **C100** While a step is executed, its task runs the plan for this step, and what observers were shown is the
beginning of the log the task has written; nothing has been handed over after it. -/
theorem C100_executing (setup : EngineSetup) (acts : List EngineAct) (E : LocalEngine) (h : EngineReach setup acts E) (r i n : Nat)
    (ρ : SysRun) (hr : E.sys.runs[r]? = some ρ) (st : Step) (hb : Busy E r i n st) :
    ∃ p l logs, (E.tasks r i)[n]? = some (p, l) ∧ PlanFor (forRun setup r) st p ∧
      (handedOver (eventsOf i ρ.trace))[n]? = some (st.toCommand, logs) ∧
      (handedOver (eventsOf i ρ.trace)).length = n + 1 ∧ logs <+: l.stream.logs := job_busy h hr hb

example : ∃ ρ t jr res, EngineReach EngineEx.setup EngineEx.two (EngineEx.after EngineEx.two) ∧
    (EngineEx.after EngineEx.two).sys.runs[0]? = some ρ ∧ ρ.tasks[0]? = some t ∧ SysTask.answer t = some jr ∧
    ρ.pc = .returned res ∧ res.jobs = [("a", jr)] ∧ jr.state = .failed ∧
    (executedSteps jr.steps).map StepRunResult.exitCode = [some 3] ∧
    ((EngineEx.after EngineEx.two).tasks 0 0).length = 1 ∧
    handedOver (eventsOf 0 ρ.trace) = [((SystemEx.step "v").toCommand, [⟨.log, "a"⟩])] := by
  refine ⟨_, _, _, _, rfl, rfl, rfl, rfl, rfl, rfl, rfl, rfl, rfl, rfl⟩

example : Busy (EngineEx.after EngineEx.two) 1 0 0 (SystemEx.step "w") ∧
    (∃ p l, ((EngineEx.after EngineEx.two).tasks 1 0)[0]? = some (p, l) ∧ l.stream.logs = [⟨.log, "a"⟩, ⟨.log, "b"⟩]) ∧
    ∃ ρ, (EngineEx.after EngineEx.two).sys.runs[1]? = some ρ ∧
      handedOver (eventsOf 0 ρ.trace) = [((SystemEx.step "w").toCommand, [⟨.log, "a"⟩])] := by
  refine ⟨⟨_, rfl, rfl, rfl, rfl⟩, ⟨_, _, rfl, rfl⟩, _, rfl, rfl⟩

/-! ## C101: runs of workflows end when their processes do -/

/-- **C101** If the processes of a run have exited and nothing that works for the run can move, then the run has
returned; other runs, whatever they do, do not hold it up. -/
theorem C101_stuck_means_returned (setup : EngineSetup) (acts : List EngineAct) (E : LocalEngine) (h : EngineReach setup acts E)
    (ha : Apart (engineMoves acts)) (hk : EngineHooksKeepJobs setup acts) (r : Nat) (ρ : SysRun) (hr : E.sys.runs[r]? = some ρ)
    (hu : UniqueJobs ρ.wf) (ho : OwnIds ρ.wf) (hd : DepsDefined ρ.wf) (hc : Acyclic ρ.wf) (hne : ρ.wf.jobs ≠ [])
    (hs : RunStuck E r) (hover : ∀ i p l, (p, l) ∈ E.tasks r i → ProcessOver l) : ∃ res, ρ.pc = .returned res := by
  obtain ⟨sa, h1, h2, h3⟩ := engine_sys h hk
  exact C83_stuck_means_returned sa E.sys h1 (apart_filter (h2 ▸ ha)) h3 r ρ hr hu ho hd hc hne (stuck_runs h hs hover)

theorem EngineEx.apart_two : Apart (engineMoves EngineEx.two) := by
  refine ⟨by decide, ?_, ?_⟩
  · intro wf hwf k j hj
    have : started (engineMoves EngineEx.two) = [SystemEx.single "v", SystemEx.single "w"] := rfl
    rw [this] at hwf
    simp only [List.mem_cons, List.not_mem_nil, or_false] at hwf
    rcases hwf with rfl | rfl <;> simp [SystemEx.single] at hj <;> obtain ⟨rfl, rfl⟩ := hj <;> rfl
  · intro r i b s hm wf hwf
    simp [EngineEx.two, engineMoves, EngineEx.head, EngineEx.begin, EngineEx.talk, EngineEx.stop, EngineEx.deliver, SystemEx.open',
      SystemEx.queue] at hm
    rcases hm with ⟨rfl, rfl, rfl, rfl⟩ | ⟨rfl, rfl, rfl, rfl⟩ <;> cases hwf <;> rfl

theorem EngineEx.keeps_two : EngineHooksKeepJobs EngineEx.setup EngineEx.two := by
  refine engineHooks_of EngineEx.apart_two ?_
  intro r i b s hm wf hwf k j hj
  simp [EngineEx.two, engineMoves, EngineEx.head, EngineEx.begin, EngineEx.talk, EngineEx.stop, EngineEx.deliver, SystemEx.open',
    SystemEx.queue] at hm
  rcases hm with ⟨rfl, rfl, rfl, rfl⟩ | ⟨rfl, rfl, rfl, rfl⟩ <;> cases hwf <;> simp [SystemEx.single] at hj <;>
    obtain ⟨rfl, rfl⟩ := hj <;> rfl

/-- Run 0 is over; the container of run 1 is still running. -/
theorem EngineEx.stuck_two : RunStuck (EngineEx.after EngineEx.two) 0 := by
  refine ⟨fun a ha => ?_, fun i past envs => ?_, fun i n a ho hf => ?_⟩
  · cases a with
    | main r b =>
      have : r = 0 := ha
      subst this
      cases b <;> rfl
    | task r i b =>
      have : r = 0 := ha
      subst this
      cases i <;> cases b <;> rfl
    | _ => cases ha
  · cases i <;> rfl
  · cases i with
    | zero => cases n <;> cases a <;> first | rfl | cases ho
    | succ i => cases a <;> rfl

set_option maxRecDepth 8000 in
example : ∃ ρ, (EngineEx.after EngineEx.two).sys.runs[0]? = some ρ ∧ UniqueJobs ρ.wf ∧ OwnIds ρ.wf ∧ DepsDefined ρ.wf ∧ Acyclic ρ.wf ∧
    ρ.wf.jobs ≠ [] ∧ Apart (engineMoves EngineEx.two) ∧ EngineHooksKeepJobs EngineEx.setup EngineEx.two ∧
    RunStuck (EngineEx.after EngineEx.two) 0 ∧ (∀ i p l, (p, l) ∈ (EngineEx.after EngineEx.two).tasks 0 i → ProcessOver l) ∧
    ∃ p l, (p, l) ∈ (EngineEx.after EngineEx.two).tasks 1 0 ∧ Running l := by
  refine ⟨_, rfl, List.nodup_singleton "a", ⟨?_, ?_⟩, ?_, SystemEx.single_acyclic "v", by decide, EngineEx.apart_two, EngineEx.keeps_two,
    EngineEx.stuck_two, ?_, _, _, List.mem_cons_self, .inl rfl, _, rfl, rfl⟩
  · intro k j k' j' h h' _
    have e : ∀ k j, (k, j) ∈ (SystemEx.single "v").jobs → k = "a" := by
      intro k j h; simp [SystemEx.single] at h; exact h.1
    exact (e k j h).trans (e k' j' h').symm
  · intro k j h s hs
    have : (k, j) ∈ (SystemEx.single "v").jobs := h
    simp [SystemEx.single] at this
    obtain ⟨rfl, rfl⟩ := this
    simp at hs
    subst hs
    rfl
  · intro k j h d hd
    have : (k, j) ∈ (SystemEx.single "v").jobs := h
    simp [SystemEx.single] at this
    obtain ⟨rfl, rfl⟩ := this
    simp at hd
  · intro i p l hl ch hch
    cases i with
    | zero =>
      obtain ⟨x, hx, hx2⟩ : ∃ x, (EngineEx.after EngineEx.two).tasks 0 0 = [x] ∧ ProcessOver x.2 :=
        ⟨_, rfl, fun ch h => by cases h; exact ⟨rfl, rfl, rfl⟩⟩
      rw [hx] at hl
      obtain rfl := List.mem_singleton.1 hl
      exact hx2 ch hch
    | succ i =>
      rw [show (EngineEx.after EngineEx.two).tasks 0 (i + 1) = [] from rfl] at hl
      simp at hl

/-! ## C102: what is left running -/

/-- **C102** (partial) When a job run has its result, none of the containers started for it is still running
unaccounted for: each has exited, or `docker kill` was called on it, or waiting for it failed and the step says so. -/
theorem C102_job_partial (setup : EngineSetup) (acts : List EngineAct) (E : LocalEngine) (h : EngineReach setup acts E) (r i : Nat)
    (ρ : SysRun) (hr : E.sys.runs[r]? = some ρ) (t : SysTask) (ht : ρ.tasks[i]? = some t) (jr : JobRunResult)
    (ha : SysTask.answer t = some jr) (p : RunPlan) (l : LocalRun) (hl : (p, l) ∈ E.tasks r i) (hk : p.kind = .docker) :
    Accounted p l := by
  have hi := engineInv_reach h
  have hp := hi.pairs r i
  rw [show taskAt E.sys r i = some t by simp [taskAt, hr, ht]] at hp
  have hp : PairInv (forRun setup r) t (E.tasks r i) := hp
  obtain ⟨n, hn⟩ := List.getElem?_of_mem hl
  obtain ⟨_, x, _, _, _, _, hx, _⟩ := (hp.idle (answer_idle ha).1).each n p l hn
  obtain ⟨la, hla⟩ := hp.reach n p l hn
  exact accounted hla hk hx

/-- **C102** (partial) When a run has returned and ran none of its jobs twice, none of its containers is still running
unaccounted for.  Missing for the full claim: jobs run twice (C02), see `C102_refuted`, and steps executed on the host, whose
process is not stopped by a signal (`C71_refuted`). -/
theorem C102_returned_partial (setup : EngineSetup) (acts : List EngineAct) (E : LocalEngine) (h : EngineReach setup acts E)
    (ha : Apart (engineMoves acts)) (r : Nat) (ρ : SysRun) (hr : E.sys.runs[r]? = some ρ) (hu : UniqueJobs ρ.wf)
    (hone : ∀ k i j, RunsJob ρ i k → RunsJob ρ j k → i = j) (res : WorkflowRunResult) (hp : ρ.pc = .returned res)
    (i : Nat) (p : RunPlan) (l : LocalRun) (hl : (p, l) ∈ E.tasks r i) (hk : p.kind = .docker) : Accounted p l := by
  have hi := engineInv_reach h
  obtain ⟨sa, hsa, hf⟩ := hi.sys
  have hap : Apart sa := apart_filter (hf ▸ ha)
  have hpr := hi.pairs r i
  cases hT : taskAt E.sys r i with
  | none =>
    rw [hT] at hpr
    have : E.tasks r i = [] := hpr
    rw [this] at hl
    simp at hl
  | some t =>
    obtain ⟨ρ', hρ', ht⟩ := taskAt_some hT
    rw [hr] at hρ'
    cases hρ'
    have hs : res.state ≠ .skipped := by
      intro hs
      have hm := (runLife_reach hsa hr).main
      simp only [MainLife, hp] at hm
      rcases hm.2.2 with ⟨_, _, h0⟩ | ⟨h0, _⟩
      · rw [h0] at ht; simp at ht
      · rw [hs] at h0; simp at h0
    have hperm := (C80_returned sa E.sys hsa hap r ρ hr hu res hp hs).1
    have hkey : t.key ∈ res.jobs.map Prod.fst :=
      hperm.mem_iff.2 (List.mem_map.2 ⟨_, (runJobs_reach hsa r ρ hr).tasks i t ht, rfl⟩)
    obtain ⟨⟨k, jr⟩, hm, hk'⟩ := List.mem_map.1 hkey
    obtain ⟨i', t', h1, h2, h3⟩ := result_task hsa hr hp hm
    have : i = i' := hone t.key i i' ⟨t, ht, rfl⟩ ⟨t', h1, h2.trans hk'⟩
    subst this
    exact C102_job_partial setup acts E h r i ρ hr t' h1 jr h3 p l hl hk

example : ∃ ρ res p l, EngineReach EngineEx.setup EngineEx.cancelOne (EngineEx.after EngineEx.cancelOne) ∧
    (EngineEx.after EngineEx.cancelOne).sys.runs[0]? = some ρ ∧ (∀ k i j, RunsJob ρ i k → RunsJob ρ j k → i = j) ∧
    ρ.pc = .returned res ∧ res.state = .cancelled ∧ (p, l) ∈ (EngineEx.after EngineEx.cancelOne).tasks 0 0 ∧ p.kind = .docker ∧
    l.exitSeen = none ∧ l.kills = ["docker kill " ++ p.dirs.dockerName] := by
  refine ⟨_, _, _, _, rfl, rfl, ?_, rfl, rfl, List.mem_cons_self, rfl, rfl, rfl⟩
  rintro k i j ⟨t, h1, _⟩ ⟨u, h2, _⟩
  cases i with
  | zero => cases j with
    | zero => rfl
    | succ j => cases h2
  | succ i => cases h1

set_option maxRecDepth 8000 in
/-- **C102 fails** in an accepted configuration, with nothing cancelled, no failure and no time passing: a job with
dependencies may be started twice (C02), and the run returns while a container of the second start is running that nobody
has told to stop. -/
theorem C102_refuted : ∃ (env : ParseEnv) (c : UserWorkflow) (wf : Workflow) (setup : EngineSetup) (acts : List EngineAct)
    (E : LocalEngine) (ρ : SysRun) (res : WorkflowRunResult) (i : Nat) (p : RunPlan) (l : LocalRun),
    buildWorkflow env "w" c = .ok wf ∧ started (engineMoves acts) = [wf] ∧ EngineReach setup acts E ∧
    E.sys.runs[0]? = some ρ ∧ ρ.pc = .returned res ∧ res.state = .succeeded ∧ E.tasks 0 i = [(p, l)] ∧ p.kind = .docker ∧
    Running l ∧ l.kills = [] ∧ ¬ Accounted p l := by
  refine ⟨ParserEx.env, EngineEx.config, EngineEx.wf, EngineEx.setup, EngineEx.again, EngineEx.after EngineEx.again, _, _, 3, _, _,
    by decide, rfl, rfl, rfl, rfl, rfl, rfl, rfl, ⟨.inl rfl, _, rfl, rfl⟩, rfl, ?_⟩
  rintro (h | ⟨ch, c, h1, h2⟩ | h | ⟨_, _, h⟩)
  · cases h
  · cases h1; cases h2
  · cases h
  · cases h

/-! ## C103: why a step was told to stop -/

/-- **C103** A runner's task is told that its step was cancelled only if somebody called `cancel_job` with the id of the
job of that very step, and was answered that the job was cancelled; this holds of every run, however many of them are active. -/
theorem C103_cancelled_because_asked (setup : EngineSetup) (acts : List EngineAct) (E : LocalEngine) (h : EngineReach setup acts E)
    (r i n : Nat) (ρ : SysRun) (hr : E.sys.runs[r]? = some ρ) (p : RunPlan) (l : LocalRun) (hl : (E.tasks r i)[n]? = some (p, l))
    (hc : l.sig.signal = some .cancel) :
    ∃ c logs, (handedOver (eventsOf i ρ.trace))[n]? = some (c, logs) ∧ (c.id.jobId, true) ∈ E.sys.answers := by
  have hi := engineInv_reach h
  obtain ⟨sa, hsa, _⟩ := hi.sys
  have hp := hi.pairs r i
  cases hT : taskAt E.sys r i with
  | none =>
    rw [hT] at hp
    have : E.tasks r i = [] := hp
    rw [this] at hl
    simp at hl
  | some t =>
    rw [hT] at hp
    have hp : PairInv (forRun setup r) t (E.tasks r i) := hp
    obtain ⟨ρ', hρ', ht⟩ := taskAt_some hT
    rw [hr] at hρ'
    cases hρ'
    have hev : eventsOf i ρ.trace = t.evs := by rw [(runLife_reach hsa hr).events i, ht]; rfl
    have hn : n < (handedOver t.evs).length := Nat.lt_of_lt_of_le (List.getElem?_eq_some_iff.1 hl).1 hp.handed
    obtain ⟨⟨c, ls⟩, hy⟩ : ∃ y, (handedOver t.evs)[n]? = some y := ⟨_, List.getElem?_eq_getElem hn⟩
    exact ⟨c, ls, by rw [hev]; exact hy, asked_reach h r i n p l t c ls hl hT hy hc⟩

/-- **C103** So a step is recorded as cancelled only if its job was cancelled. -/
theorem C103_result (setup : EngineSetup) (acts : List EngineAct) (E : LocalEngine) (h : EngineReach setup acts E) (r : Nat)
    (ρ : SysRun) (hr : E.sys.runs[r]? = some ρ) (res : WorkflowRunResult) (hp : ρ.pc = .returned res) (k : Id) (jr : JobRunResult)
    (hk : (k, jr) ∈ res.jobs) (sr : StepRunResult) (hs : sr ∈ jr.steps) (hc : sr.state = .cancelled) :
    (sr.id.jobId, true) ∈ E.sys.answers := by
  obtain ⟨i, hi, h1, h2, h3⟩ := C100_workflow setup acts E h r ρ hr res hp k jr hk
  have hm : sr ∈ executedSteps jr.steps := by simp [executedSteps, hs, hc]
  obtain ⟨n, hn⟩ := List.getElem?_of_mem hm
  have hlt := (List.getElem?_eq_some_iff.1 hn).1
  rw [h2] at hlt
  obtain ⟨⟨p, l⟩, hl⟩ : ∃ y, (E.tasks r i)[n]? = some y := ⟨_, List.getElem?_eq_getElem hlt⟩
  obtain ⟨hh, hhn⟩ : ∃ y, (handedOver (eventsOf i ρ.trace))[n]? = some y := ⟨_, List.getElem?_eq_getElem (by rw [h1]; exact hlt)⟩
  obtain ⟨st, q1, q2, q3, q4, q5, q6⟩ := h3 n hh p l sr hhn hl hn
  have hsig : l.sig.signal = some .cancel := by
    refine q6 _ ?_
    unfold Reports at q4
    unfold expectedResult at q4
    cases he : l.exitSeen with
    | some c =>
      rw [he] at q4
      cases c with
      | none => simp [hc] at q4
      | some c =>
        simp only at q4
        split at q4 <;> split at * <;> simp_all
    | none =>
      rw [he] at q4
      cases hv : l.sigSeen with
      | none => rw [hv] at q4; simp [hc] at q4
      | some v => rw [hv] at q4; cases v <;> simp [hc] at q4 ⊢
  obtain ⟨c, ls, k1, k2⟩ := C103_cancelled_because_asked setup acts E h r i n ρ hr p l hl hsig
  rw [hhn] at k1
  cases k1
  cases q1
  rw [q3]
  exact k2

example : ∃ ρ res jr sr p l, EngineReach EngineEx.setup EngineEx.cancelOne (EngineEx.after EngineEx.cancelOne) ∧
    (EngineEx.after EngineEx.cancelOne).sys.runs[0]? = some ρ ∧ ρ.pc = .returned res ∧ res.jobs = [("a", jr)] ∧ jr.steps = [sr] ∧
    sr.state = .cancelled ∧ ((EngineEx.after EngineEx.cancelOne).tasks 0 0)[0]? = some (p, l) ∧ l.sig.signal = some .cancel ∧
    (EngineEx.after EngineEx.cancelOne).sys.answers = [(⟨"v", "a"⟩, true)] ∧
    ∃ p' l', ((EngineEx.after EngineEx.cancelOne).tasks 1 0)[0]? = some (p', l') ∧ l'.sig.signal = none ∧ Running l' := by
  refine ⟨_, _, _, _, _, _, rfl, rfl, rfl, rfl, rfl, rfl, rfl, rfl, rfl, _, _, rfl, rfl, .inl rfl, _, rfl, rfl⟩

end AstroRun
