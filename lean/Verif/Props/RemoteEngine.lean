import Verif.Lemmas.RemoteEngineSignals
import Verif.Props.LocalEngine
import Verif.Props.SystemCancel
import Verif.Props.SystemLive

/-! # C114–C117: a whole engine on the remote runner

Schedules are arbitrary interleavings of any number of runs of workflows, all their job tasks, users of the API, the clock,
the remote runner's client, all tasks it has spawned, the network, the servers, the runners there and the notifications sent to the
servers, with all their failures. -/

namespace AstroRun
open Spec

namespace RemoteEngineEx
/-- Two workflows are started; both have a step to hand over to the runner. -/
def head : List RemoteEngineAct :=
  ([.start (SystemEx.single "v"), .start (SystemEx.single "w")] ++ SystemEx.open' 0 ++ SystemEx.open' 1 ++ SystemEx.queue 0 "v" ++
    SystemEx.queue 1 "w" ++ [.task 0 0 .call, .task 1 0 .call] : List SysAct).map .sys

/-- The client sends the step of job task `i` of run `r` to server `sv`. -/
def send (r i : Nat) (sv : Id) : List RemoteEngineAct :=
  [.dispatched r i sv, .sys (.task r i .emit), .sys (.task r i .emit), .sys (.task r i .enter)]

/-- The server takes it, and a runner there. -/
def take (r i : Nat) : List RemoteEngineAct := [.net r i 0 .rpcOk, .net r i 0 .srvRunOk]

/-- The runner writes a line, which gets to the client. -/
def write (r i : Nat) (s : String) : List RemoteEngineAct :=
  [.net r i 0 (.runnerPush (Log.ofLog s)), .net r i 0 .srvPoll, .net r i 0 .srvSend, .net r i 0 .xmit, .net r i 0 .cliNext]

/-- The engine reads a line. -/
def read (r i : Nat) : List RemoteEngineAct :=
  [.sys (.task r i .recv), .sys (.task r i .emit), .sys (.task r i .emit), .sys (.task r i .enter)]

/-- The runner ends, and the client is told. -/
def over (r i : Nat) (x : RunResult) : List RemoteEngineAct :=
  [.net r i 0 (.runnerEnd x), .net r i 0 .srvPoll, .net r i 0 .srvResult, .net r i 0 .srvSend, .net r i 0 .xmit, .net r i 0 .cliNext,
    .net r i 0 .cliNext, .net r i 0 .check]

/-- The engine ends the step. -/
def stop (r i : Nat) : List RemoteEngineAct :=
  [.sys (.task r i .recv), .sys (.task r i .emit), .sys (.task r i .emit), .sys (.task r i .emit)]

/-- The job ends and its result is delivered. -/
def deliver (r i : Nat) : List RemoteEngineAct :=
  ([.task r i .finishJob, .task r i .emit, .task r i .emit, .task r i .emit, .task r i .send, .main r .recv] : List SysAct).map .sys

/-- The first workflow runs to its end; the runner of the second one has written a line nobody was shown. -/
def two : List RemoteEngineAct :=
  head ++ send 0 0 "a" ++ send 1 0 "a" ++ take 1 0 ++ take 0 0 ++ write 0 0 "x" ++ read 0 0 ++ write 1 0 "y" ++ over 0 0 (.failed 3) ++ stop 0 0 ++
    deliver 0 0 ++ [.sys (.main 0 .announce), .sys (.main 0 .complete), .stepCompleted 0 "a"
      { id := ⟨"v", "a", 0⟩, state := .failed, exitCode := some 3, startedAt := some 1, completedAt := some 2 }]

/-- The state a schedule leads to. -/
def after (acts : List RemoteEngineAct) : RemoteEngine := (runs RemoteEngine.step RemoteEngine.initial acts).getD RemoteEngine.initial

/-- Both steps are being executed on server `a`. -/
def both : List RemoteEngineAct := head ++ send 0 0 "a" ++ send 1 0 "a" ++ take 1 0 ++ take 0 0

/-- The first workflow's job is cancelled, and the runner on the server told. -/
def cancelOne : List RemoteEngineAct :=
  both ++ [.sys (.cancel ⟨"v", "a"⟩), .sys (.task 0 0 .jobSignal), .net 0 0 0 .cliSignal, .net 0 0 0 .sigOk]

/-- Job task `i` of run 0 finds no runner for its step, and its job ends. -/
def none' (i : Nat) : List RemoteEngineAct :=
  [.noRunner 0 i, .sys (.task 0 i .emit), .sys (.task 0 i .emit), .sys (.task 0 i .enter)] ++ read 0 i ++ stop 0 i ++ deliver 0 i

/-- `c` is started twice (tasks 2 and 3), both on server `a`; the server takes the second call first. -/
def again : List RemoteEngineAct :=
  ([.start EngineEx.wf, .main 0 (.check true), .main 0 .spawn, .main 0 .spawn, .main 0 .spawn, .main 0 .spawn] : List SysAct).map .sys ++
  (TimingEx.first 1 "a").map .sys ++ none' 1 ++ (TimingEx.first 0 "b").map .sys ++ none' 0 ++
  (TimingEx.first 2 "c" ++ TimingEx.first 3 "c").map .sys ++ send 0 2 "a" ++ send 0 3 "a" ++ take 0 3 ++ take 0 2

/-- `c` is cancelled; the second of its job runs is told, and its client tells the server, which takes the message. -/
def astray : List RemoteEngineAct :=
  again ++ [.sys (.cancel ⟨"w", "c"⟩), .sys (.task 0 3 .jobSignal), .net 0 3 0 .cliSignal, .net 0 3 0 .sigOk]
end RemoteEngineEx

/-! ## C114: steps end as their runners on the servers ended them -/

/-- **C114** Whatever happens, the engine does what it does with any runner, and client, network and server of each call what
they do for any engine: every theorem about engines (`SysReach`) and about remote executions (`RemoteReach`) holds of the two together. -/
theorem C114_both_views (acts : List RemoteEngineAct) (E : RemoteEngine) (h : RemoteEngineReach acts E) :
    (∃ sa, SysReach sa E.sys ∧ sa.filter (fun a => !a.byRunner) = remoteEngineMoves acts) ∧
    ∀ (r i n : Nat) (x : RemoteExec), callAt E r i n = some x → ∃ na, RemoteReach na x.net ∧
      na.filter (fun | .setSignal _ | .engPoll => false | _ => true) = callMoves r i n acts := by
  refine ⟨(rengineInv_reach h).sys, fun r i n x hx => ?_⟩
  obtain ⟨na, h1, h2⟩ := callAt_reach h hx
  refine ⟨na, h1, ?_⟩
  rw [← h2]
  congr 1

/-- **C114** When a job run has its result, the steps it announced to the runner, the calls the client made for it and the
results of the steps that were not skipped correspond one to one and in order; of each such step observers were shown what
the runner on the server wrote, up to some point, and at most one error of the client's own; the result stored is
the one the runner ended with, or the failure the client reports with that error.  If nothing failed in a call, its step was shown in
full and has the runner's result.  A step no runner was found for has failed, its log saying so. -/
theorem C114_job (acts : List RemoteEngineAct) (E : RemoteEngine) (h : RemoteEngineReach acts E) (r i : Nat)
    (ρ : SysRun) (hr : E.sys.runs[r]? = some ρ) (t : SysTask) (ht : ρ.tasks[i]? = some t) (jr : JobRunResult)
    (ha : SysTask.answer t = some jr) :
    SameRemoteSteps acts E r i (handedOver (eventsOf i ρ.trace)) (executedSteps jr.steps) := rjob_done h hr ht ha

/-- **C114** The same for every job in the result of a workflow. -/
theorem C114_workflow (acts : List RemoteEngineAct) (E : RemoteEngine) (h : RemoteEngineReach acts E) (r : Nat)
    (ρ : SysRun) (hr : E.sys.runs[r]? = some ρ) (res : WorkflowRunResult) (hp : ρ.pc = .returned res) (k : Id) (jr : JobRunResult)
    (hk : (k, jr) ∈ res.jobs) :
    ∃ i, RunsJob ρ i k ∧ SameRemoteSteps acts E r i (handedOver (eventsOf i ρ.trace)) (executedSteps jr.steps) := by
  obtain ⟨sa, hsa, _⟩ := (rengineInv_reach h).sys
  obtain ⟨i, t, h1, h2, h3⟩ := result_task hsa hr hp hk
  exact ⟨i, ⟨t, h1, h2⟩, rjob_done h hr h1 h3⟩

/-- **C114** While a step is executed, its call is for this step, and what observers were shown is the beginning of what the
client has written to the stream; nothing has been handed over after it. -/
theorem C114_executing (acts : List RemoteEngineAct) (E : RemoteEngine) (h : RemoteEngineReach acts E) (r i n : Nat)
    (ρ : SysRun) (hr : E.sys.runs[r]? = some ρ) (st : Step) (hb : BusyRemotely E r i n st) :
    ∃ o logs, (E.calls r i)[n]? = some o ∧
      (handedOver (eventsOf i ρ.trace))[n]? = some (st.toCommand, logs) ∧
      (handedOver (eventsOf i ρ.trace)).length = n + 1 ∧
      (∀ x, o = some x → x.command = st.toCommand ∧ logs <+: x.net.outer.logs) ∧
      (o = none → logs <+: [Log.ofError "No runner available"]) := rjob_busy h hr hb

set_option maxRecDepth 8000 in
example : ∃ ρ t jr res x, RemoteEngineReach RemoteEngineEx.two (RemoteEngineEx.after RemoteEngineEx.two) ∧
    (RemoteEngineEx.after RemoteEngineEx.two).sys.runs[0]? = some ρ ∧ ρ.tasks[0]? = some t ∧ SysTask.answer t = some jr ∧
    ρ.pc = .returned res ∧ res.jobs = [("a", jr)] ∧ jr.state = .failed ∧
    (executedSteps jr.steps).map StepRunResult.exitCode = [some 3] ∧
    (RemoteEngineEx.after RemoteEngineEx.two).calls 0 0 = [some x] ∧
    handedOver (eventsOf 0 ρ.trace) = [((SystemEx.step "v").toCommand, [⟨.log, "x"⟩])] ∧
    runnerResult (callMoves 0 0 0 RemoteEngineEx.two) = some (.failed 3) ∧ FaultFree (callMoves 0 0 0 RemoteEngineEx.two) := by
  refine ⟨_, _, _, _, _, rfl, rfl, rfl, rfl, rfl, rfl, rfl, rfl, rfl, rfl, rfl, ?_⟩
  unfold FaultFree
  decide +kernel

set_option maxRecDepth 8000 in
example : BusyRemotely (RemoteEngineEx.after RemoteEngineEx.two) 1 0 0 (SystemEx.step "w") ∧
    (∃ x, callAt (RemoteEngineEx.after RemoteEngineEx.two) 1 0 0 = some x ∧ x.net.outer.logs = [⟨.log, "y"⟩]) ∧
    ∃ ρ, (RemoteEngineEx.after RemoteEngineEx.two).sys.runs[1]? = some ρ ∧
      handedOver (eventsOf 0 ρ.trace) = [((SystemEx.step "w").toCommand, [])] := by
  refine ⟨⟨_, rfl, rfl, rfl, rfl⟩, ⟨_, rfl, rfl⟩, _, rfl, rfl⟩

set_option maxRecDepth 8000 in
/-- A step for which no runner was found. -/
example : ∃ ρ t jr, RemoteEngineReach RemoteEngineEx.again (RemoteEngineEx.after RemoteEngineEx.again) ∧
    (RemoteEngineEx.after RemoteEngineEx.again).sys.runs[0]? = some ρ ∧ ρ.tasks[1]? = some t ∧ SysTask.answer t = some jr ∧
    jr.state = .failed ∧ (RemoteEngineEx.after RemoteEngineEx.again).calls 0 1 = [none] := by
  refine ⟨_, _, _, rfl, rfl, rfl, rfl, rfl, rfl⟩

/-! ## C115: runs of workflows end when their runners do -/

/-- **C115** If every runner on a server that works for a run has ended its stream (or its server's task, or the client's, is over) and nothing
that works for the run can move, then the run has returned; other runs, whatever they do, do not hold it up. -/
theorem C115_stuck_means_returned (acts : List RemoteEngineAct) (E : RemoteEngine) (h : RemoteEngineReach acts E)
    (ha : Apart (remoteEngineMoves acts)) (hk : RemoteEngineHooksKeepJobs acts) (r : Nat) (ρ : SysRun) (hr : E.sys.runs[r]? = some ρ)
    (hu : UniqueJobs ρ.wf) (ho : OwnIds ρ.wf) (hd : DepsDefined ρ.wf) (hc : Acyclic ρ.wf) (hne : ρ.wf.jobs ≠ [])
    (hs : RemoteRunStuck E r) (hover : ∀ i n x, callAt E r i n = some x → ServerOver x (callMoves r i n acts)) :
    ∃ res, ρ.pc = .returned res := by
  obtain ⟨sa, h1, h2, h3⟩ := rengine_sys h hk
  exact C83_stuck_means_returned sa E.sys h1 (apart_filter (h2 ▸ ha)) h3 r ρ hr hu ho hd hc hne
    (rstuck_runs h hs fun i n x hx => hover i n x (callAt_iff.2 hx))

theorem RemoteEngineEx.apart_two : Apart (remoteEngineMoves RemoteEngineEx.two) := by
  refine ⟨by decide, ?_, ?_⟩
  · intro wf hwf k j hj
    have : Spec.started (remoteEngineMoves RemoteEngineEx.two) = [SystemEx.single "v", SystemEx.single "w"] := rfl
    rw [this] at hwf
    simp only [List.mem_cons, List.not_mem_nil, or_false] at hwf
    rcases hwf with rfl | rfl <;> simp [SystemEx.single] at hj <;> obtain ⟨rfl, rfl⟩ := hj <;> rfl
  · intro r i b s hm wf hwf
    simp [RemoteEngineEx.two, remoteEngineMoves, RemoteEngineEx.head, RemoteEngineEx.send, RemoteEngineEx.take, RemoteEngineEx.write,
      RemoteEngineEx.read, RemoteEngineEx.over, RemoteEngineEx.stop, RemoteEngineEx.deliver, SystemEx.open', SystemEx.queue] at hm
    rcases hm with ⟨rfl, rfl, rfl, rfl⟩ | ⟨rfl, rfl, rfl, rfl⟩ <;> cases hwf <;> rfl

theorem RemoteEngineEx.keeps_two : RemoteEngineHooksKeepJobs RemoteEngineEx.two := by
  refine remoteHooks_of RemoteEngineEx.apart_two ?_
  intro r i b s hm wf hwf k j hj
  simp [RemoteEngineEx.two, remoteEngineMoves, RemoteEngineEx.head, RemoteEngineEx.send, RemoteEngineEx.take, RemoteEngineEx.write,
    RemoteEngineEx.read, RemoteEngineEx.over, RemoteEngineEx.stop, RemoteEngineEx.deliver, SystemEx.open', SystemEx.queue] at hm
  rcases hm with ⟨rfl, rfl, rfl, rfl⟩ | ⟨rfl, rfl, rfl, rfl⟩ <;> cases hwf <;> simp [SystemEx.single] at hj <;>
    obtain ⟨rfl, rfl⟩ := hj <;> rfl

set_option maxRecDepth 8000 in
/-- Run 0 is over; the runner of run 1 is still running. -/
theorem RemoteEngineEx.stuck_two : RemoteRunStuck (RemoteEngineEx.after RemoteEngineEx.two) 0 := by
  refine ⟨fun a ha => ?_, fun i sv => ?_, fun i n a ha => ?_, fun i n x hx hd e => ?_⟩
  · cases a with
    | main r b =>
      have : r = 0 := ha
      subst this
      cases b <;> rfl
    | task r i b =>
      have : r = 0 := ha
      subst this
      cases i <;> cases b <;> rfl
    | _ => cases ha
  · cases i <;> exact ⟨rfl, rfl⟩
  · cases i with
    | zero => cases n <;> cases a <;> first | rfl | cases ha
    | succ i => cases a <;> rfl
  · cases i with
    | zero => cases n <;> rfl
    | succ i => rfl

set_option maxRecDepth 8000 in
example : ∃ ρ, (RemoteEngineEx.after RemoteEngineEx.two).sys.runs[0]? = some ρ ∧ UniqueJobs ρ.wf ∧ OwnIds ρ.wf ∧ DepsDefined ρ.wf ∧
    Acyclic ρ.wf ∧ ρ.wf.jobs ≠ [] ∧ Apart (remoteEngineMoves RemoteEngineEx.two) ∧ RemoteEngineHooksKeepJobs RemoteEngineEx.two ∧
    RemoteRunStuck (RemoteEngineEx.after RemoteEngineEx.two) 0 ∧
    (∀ i n x, callAt (RemoteEngineEx.after RemoteEngineEx.two) 0 i n = some x → ServerOver x (callMoves 0 i n RemoteEngineEx.two)) ∧
    ∃ x, callAt (RemoteEngineEx.after RemoteEngineEx.two) 1 0 0 = some x ∧ ¬ ServerOver x (callMoves 1 0 0 RemoteEngineEx.two) := by
  refine ⟨_, rfl, List.nodup_singleton "a", ⟨?_, ?_⟩, ?_, SystemEx.single_acyclic "v", by decide, RemoteEngineEx.apart_two,
    RemoteEngineEx.keeps_two, RemoteEngineEx.stuck_two, ?_, _, rfl, ?_⟩
  · intro k j k' j' h h' _
    have e : ∀ k j, (k, j) ∈ (SystemEx.single "v").jobs → k = "a" := by
      intro k j h; simp [SystemEx.single] at h; exact h.1
    exact (e k j h).trans (e k' j' h').symm
  · intro k j h s hs
    have : (k, j) ∈ (SystemEx.single "v").jobs := h
    simp [SystemEx.single] at this
    obtain ⟨rfl, rfl⟩ := this
    simp at hs
    subst hs
    rfl
  · intro k j h d hd
    have : (k, j) ∈ (SystemEx.single "v").jobs := h
    simp [SystemEx.single] at this
    obtain ⟨rfl, rfl⟩ := this
    simp at hd
  · intro i n x hx
    cases i with
    | zero =>
      cases n with
      | zero => left; decide +kernel
      | succ n =>
        have : callAt (RemoteEngineEx.after RemoteEngineEx.two) 0 0 (n + 1) = none := rfl
        rw [this] at hx; cases hx
    | succ i =>
      have : callAt (RemoteEngineEx.after RemoteEngineEx.two) 0 (i + 1) n = none := by
        cases n <;> rfl
      rw [this] at hx; cases hx
  · rintro (h | h | h)
    · exact h rfl
    · cases h
    · cases h

/-! ## C116: why a runner on a server was told to stop -/

/-- **C116** A runner on a server is told that its step was cancelled, or a client's task that it is, only if somebody called
`cancel_job` with the id of the job of that very step, and was answered that the job was cancelled; however many runs are active, and
whatever servers their steps are on. -/
theorem C116_cancelled_because_asked (acts : List RemoteEngineAct) (E : RemoteEngine) (h : RemoteEngineReach acts E)
    (r i n : Nat) (x : RemoteExec) (hx : callAt E r i n = some x)
    (hc : x.net.sig.signal = some .cancel ∨ x.remote.signal = some .cancel) : (x.command.id.jobId, true) ∈ E.sys.answers := by
  have key : ∀ r i n y, callAt E r i n = some y → y.net.sig.signal = some .cancel → (y.command.id.jobId, true) ∈ E.sys.answers :=
    fun r i n y hy hs => rasked_reach h r i n y.command y.net (view_get (callAt_iff.1 hy)) hs
  rcases hc with hc | hc
  · exact key r i n x hx hc
  · obtain ⟨r', i', n', y, h1, _, h3, h4⟩ := (reSigInv_reach h).source r i n x .cancel hx hc
    have := key r' i' n' y h1 h4
    rwa [h3] at this

/-- **C116** A runner on a server gets a signal, of whatever kind, only if the engine has set it in an execution of a step with this id on
this server; if there is no other call for a step with this id, in this very execution. -/
theorem C116_signal_only_from_engine (acts : List RemoteEngineAct) (E : RemoteEngine) (h : RemoteEngineReach acts E)
    (r i n : Nat) (x : RemoteExec) (hx : callAt E r i n = some x) (v : Signal) (hv : x.remote.signal = some v) :
    (∃ r' i' n' y, callAt E r' i' n' = some y ∧ y.server = x.server ∧ y.command.id = x.command.id ∧ y.net.sig.signal = some v) ∧
    (OnlyCallFor E r i n x.command.id → x.net.sig.signal = some v) := by
  obtain ⟨r', i', n', y, h1, h2, h3, h4⟩ := (reSigInv_reach h).source r i n x v hx hv
  refine ⟨⟨r', i', n', y, h1, h2, h3, h4⟩, fun ho => ?_⟩
  obtain ⟨rfl, rfl, rfl⟩ := ho.1 r' i' n' y h1 h3
  rw [hx, Option.some.injEq] at h1
  subst h1
  exact h4

set_option maxRecDepth 8000 in
example : ∃ x y, RemoteEngineReach RemoteEngineEx.cancelOne (RemoteEngineEx.after RemoteEngineEx.cancelOne) ∧
    callAt (RemoteEngineEx.after RemoteEngineEx.cancelOne) 0 0 0 = some x ∧ x.remote.signal = some .cancel ∧
    (RemoteEngineEx.after RemoteEngineEx.cancelOne).sys.answers = [(⟨"v", "a"⟩, true)] ∧
    callAt (RemoteEngineEx.after RemoteEngineEx.cancelOne) 1 0 0 = some y ∧ y.server = x.server ∧ y.remote.signal = none ∧
    y.net.sig.signal = none := by
  refine ⟨_, _, rfl, rfl, rfl, rfl, rfl, rfl, rfl, rfl⟩

/-! ## C117: signals get to the server -/

/-- The signal of a step that is being executed and that of its call are the same. -/
theorem busy_signal {acts : List RemoteEngineAct} {E : RemoteEngine} (h : RemoteEngineReach acts E) {r i n : Nat} {st : Step}
    (hb : BusyRemotely E r i n st) {x : RemoteExec} (hx : callAt E r i n = some x) {t : SysTask} (ht : taskAt E.sys r i = some t) :
    x.net.sig.signal = t.sig.signal ∧ x.command = st.toCommand := by
  obtain ⟨t', ht', hrd, hst, hn⟩ := hb
  rw [ht, Option.some.injEq] at ht'
  subst ht'
  obtain ⟨st', D, q, H, a1, a2, a3, _⟩ := (rpair h ht).link hrd
  rw [hst, Option.some.injEq] at a1
  subst a1
  have hv := view_get (callAt_iff.1 hx)
  have hl : n = D.length := by
    have : (E.calls r i).length = D.length + 1 := by rw [← List.length_map (f := callView), a2]; simp
    omega
  rw [a2, hl] at hv
  simp only [List.getElem?_concat_length, Option.some.injEq] at hv
  subst hv
  exact ⟨a3.2.2.2.2.2, a3.1⟩

/-- **C117** (partial) While a step is executed through the only call for a step with its id, and it has been signalled: the runner on the
server has the signal, or the client does not listen to the server any more, or one of the moves that carry the signal on is possible.
Missing for the full claim: steps with the same id executed at the same time, see `C117_refuted`. -/
theorem C117_signal_carried_partial (acts : List RemoteEngineAct) (E : RemoteEngine) (h : RemoteEngineReach acts E) (r i n : Nat)
    (st : Step) (hb : BusyRemotely E r i n st) (x : RemoteExec) (hx : callAt E r i n = some x) (ho : OnlyCallFor E r i n st.id)
    (t : SysTask) (ht : taskAt E.sys r i = some t) (v : Signal) (hv : t.sig.signal = some v) :
    x.remote.signal = some v ∨ x.net.cli = .checking ∨ x.net.cli = .finished ∨
    ∃ a, carriesOn r i n a = true ∧ (E.step a).isSome = true := by
  obtain ⟨e5, e6⟩ := busy_signal h hb hx ht
  obtain ⟨na, hna, _⟩ := callAt_reach h hx
  rw [hv] at e5
  have net : ∀ a, a.byStack = false → (x.net.step a).isSome = true → (E.step (.net r i n a)).isSome = true := by
    intro a ha hs
    obtain ⟨m, hm⟩ := Option.isSome_iff_exists.1 hs
    simp [RemoteEngine.step, callAt_iff.1 hx, ha, hm]
  cases hcli : x.net.cli with
  | calling =>
    refine .inr (.inr (.inr ⟨.net r i n .rpcOk, by simp [carriesOn], net _ rfl ?_⟩))
    simp [RemoteRun.step, hcli, calling_idle hna hcli]
  | signalling w =>
    refine .inr (.inr (.inr ⟨.net r i n .sigOk, by simp [carriesOn], net _ rfl ?_⟩))
    simp [RemoteRun.step, hcli]
  | checking => exact .inr (.inl rfl)
  | finished => exact .inr (.inr (.inl rfl))
  | streaming =>
    cases hn : x.net.sig.isNotified with
    | false =>
      refine .inr (.inr (.inr ⟨.net r i n .cliSignal, by simp [carriesOn], net _ rfl ?_⟩))
      simp [RemoteRun.step, hcli, SigState.poll, e5, hn]
    | true =>
      left
      have hsent : v ∈ x.net.sigSent := by
        rcases seen_reach hna hn with g | ⟨w, g⟩ | g | g
        · rcases (sendInv_reach hna).sent with g0 | ⟨w, g1, g2, _⟩
          · exact absurd g0 g
          · rw [e5, Option.some.injEq] at g2
            subst g2
            rw [g1]; exact List.mem_singleton_self _
        all_goals (rw [hcli] at g; cases g)
      exact (reSigInv_reach h).sent r i n x v hx (by rw [e6]; exact ho) hsent

/-- Nothing moves in a call that was not made. -/
theorem no_call_no_moves {acts : List RemoteEngineAct} {E : RemoteEngine} (h : RemoteEngineReach acts E) {r i n : Nat} :
    callAt E r i n = none → callMoves r i n acts = [] := by
  refine runs_induct (P := fun acts E => callAt E r i n = none → callMoves r i n acts = []) (fun _ => rfl) ?_ h
  intro acts a E E' hr ih hs hx
  have hold : callAt E r i n = none := by
    cases hc : callAt E r i n with
    | none => rfl
    | some z =>
      obtain ⟨y, hy, _⟩ := calls_step hs r i n z hc
      rw [hx] at hy; cases hy
  rw [callMoves_snoc, ih hold, List.nil_append]
  cases a with
  | net r0 i0 n0 a =>
    obtain ⟨x, m, hx0, _⟩ := renet_step hs
    have hx0 := callAt_iff.2 hx0
    by_cases he : r0 = r ∧ i0 = i ∧ n0 = n
    · obtain ⟨rfl, rfl, rfl⟩ := he
      rw [hold] at hx0; cases hx0
    · simp [callMoves, he]
  | signalFailed r0 i0 n0 b =>
    obtain ⟨x, m, v, hx0, _⟩ := refail_step hs
    have hx0 := callAt_iff.2 hx0
    by_cases he : r0 = r ∧ i0 = i ∧ n0 = n
    · obtain ⟨rfl, rfl, rfl⟩ := he
      rw [hold] at hx0; cases hx0
    · simp [callMoves, he]
  | _ => simp [callMoves]

/-- **C117** Three such moves at most are needed: no schedule has more of them for one call. -/
theorem C117_moves_bounded (acts : List RemoteEngineAct) (E : RemoteEngine) (h : RemoteEngineReach acts E) (r i n : Nat) :
    (acts.filter (carriesOn r i n)).length ≤ 3 := by
  have hnet : (callMoves r i n acts).count .rpcOk ≤ 1 ∧ (callMoves r i n acts).count .cliSignal ≤ 1 ∧
      (callMoves r i n acts).count .sigOk ≤ 1 := by
    cases hx : callAt E r i n with
    | none =>
      rw [no_call_no_moves h hx]; simp
    | some x =>
      obtain ⟨na, hna, hfil⟩ := callAt_reach h hx
      obtain ⟨h1, h2, h3⟩ := call_counts hna
      rw [← hfil]
      have hle := fun a => List.Sublist.count_le (l₁ := na.filter notEngine) (l₂ := na) a List.filter_sublist
      refine ⟨?_, ?_, ?_⟩
      · have := hle .rpcOk; omega
      · have := hle .cliSignal; omega
      · have := hle .sigOk
        rcases (sendInv_reach hna).sent with g | ⟨v, g, _⟩ <;> rw [g] at h3 <;> simp at h3 <;> omega
  have hsum : ∀ acts : List RemoteEngineAct, (acts.filter (carriesOn r i n)).length ≤ (callMoves r i n acts).count .rpcOk +
      (callMoves r i n acts).count .cliSignal + (callMoves r i n acts).count .sigOk := by
    intro acts
    induction acts with
    | nil => simp
    | cons a acts ih =>
      have e : callMoves r i n (a :: acts) = callMoves r i n [a] ++ callMoves r i n acts := by
        simp only [callMoves, ← List.filterMap_append, List.singleton_append]
      rw [e]
      simp only [List.count_append, List.filter_cons]
      split
      · rename_i hc
        unfold carriesOn at hc
        split at hc
        all_goals first
          | (simp only [Bool.and_eq_true, beq_iff_eq] at hc
             obtain ⟨⟨rfl, rfl⟩, rfl⟩ := hc
             simp [callMoves] at ih ⊢
             omega)
          | cases hc
      · omega
  have := hsum acts
  omega

/-- **C117** (partial) Once `cancel_job` has succeeded, while a step of that job waits for its server: the cancellation has been passed
on to a step of this job already, or the engine can pass it on, and then the client's task of this step has it.  Missing for the full claim:
jobs announced by several job runs (C82), see `C117_refuted`. -/
theorem C117_cancellation_partial (acts : List RemoteEngineAct) (E : RemoteEngine) (h : RemoteEngineReach acts E) (j : JobId)
    (ha : (j, true) ∈ E.sys.answers) (hone : AnnouncedOnce E.sys j) (r i n : Nat) (st : Step) (hb : BusyRemotely E r i n st)
    (hj : st.id.jobId = j) (t : SysTask) (ht : taskAt E.sys r i = some t) (t0 d : Time) (ref : Nat) (hp : t.pc = .select st t0 d ref)
    (x : RemoteExec) (hx : callAt E r i n = some x) (hno : x.net.sig.signal = none) :
    (∃ sa, SysReach sa E.sys ∧ sa.filter (fun a => !a.byRunner) = remoteEngineMoves acts ∧ PassedOn sa j) ∨
    ∃ E' x', E.step (.sys (.task r i .jobSignal)) = some E' ∧ callAt E' r i n = some x' ∧ x'.net.sig.signal = some .cancel := by
  obtain ⟨sa, h1, h2⟩ := (rengineInv_reach h).sys
  rcases C82_reaches_the_job_partial sa E.sys h1 j ha hone r i t ht st t0 d ref hp hj with hpass | ⟨M', t', hm, ht', hsig⟩
  · exact .inl ⟨sa, h1, h2, hpass⟩
  · right
    have hstep : E.step (.sys (.task r i .jobSignal)) = some { E with sys := M', calls := E.shared M' (.task r i .jobSignal) } := by
      simp [RemoteEngine.step, SysAct.byRunner, hm]
    obtain ⟨x', hx', _⟩ := calls_step hstep r i n x hx
    have hE' : RemoteEngineReach (acts ++ [.sys (.task r i .jobSignal)]) _ := (runs_snoc ..).2 ⟨E, h, hstep⟩
    obtain ⟨e1, _⟩ := busy_signal h hb hx ht
    have hb' : BusyRemotely { E with sys := M', calls := E.shared M' (.task r i .jobSignal) } r i n st := by
      obtain ⟨ρ, u, u', g1, g2, g3, _, g, ρ', g4, g5⟩ := task_act hm
      rw [ht, Option.some.injEq] at g2
      subst g2
      rw [ht', Option.some.injEq] at g3
      subst g3
      have hpc : t'.pc = .handling st t0 ref := by
        simp only [Sys.taskStep, hp] at g4
        (repeat' split at g4) <;> cases g4
        obtain ⟨ρ2, k1, k2⟩ := taskAt_some ht
        rw [g1, Option.some.injEq] at k1
        subst k1
        simp [SysRun.setTask, (List.getElem?_eq_some_iff.1 k2).1] at g5
        rw [← g5]
      obtain ⟨_, _, _, _, hn⟩ := hb
      refine ⟨t', ht', by rw [hpc]; rfl, by rw [hpc]; rfl, ?_⟩
      simp only [RemoteEngine.shared]
      rw [hn]
      cases E.sys.jobTask r i with
      | none => rfl
      | some w =>
        cases M'.jobTask r i with
        | none => rfl
        | some w' =>
          simp only
          split
          · simp [updCalls]
          · rfl
    obtain ⟨e2, _⟩ := busy_signal hE' hb' hx' ht'
    exact ⟨_, x', hstep, hx', by rw [e2, hsig, ← e1, hno]; rfl⟩

/-- Both steps are being executed on server `a`, and the job of the first is cancelled. -/
def RemoteEngineEx.asked : List RemoteEngineAct := RemoteEngineEx.both ++ [.sys (.cancel ⟨"v", "a"⟩)]

/-- The engine has passed this on, but the server does not know yet. -/
def RemoteEngineEx.told : List RemoteEngineAct := RemoteEngineEx.asked ++ [.sys (.task 0 0 .jobSignal)]

set_option maxRecDepth 8000 in
theorem RemoteEngineEx.only_told : OnlyCallFor (RemoteEngineEx.after RemoteEngineEx.told) 0 0 0 (SystemEx.step "v").id := by
  refine ⟨fun r i n y hy he => ?_, fun r ρ o res hr hm => ?_⟩
  · have hi : i = 0 := by
      cases i with
      | zero => rfl
      | succ i =>
        have : callAt (RemoteEngineEx.after RemoteEngineEx.told) r (i + 1) n = none := by rcases r with _ | _ | r <;> cases n <;> rfl
        rw [this] at hy; cases hy
    subst hi
    have hn : n = 0 := by
      cases n with
      | zero => rfl
      | succ n =>
        have : callAt (RemoteEngineEx.after RemoteEngineEx.told) r 0 (n + 1) = none := by
          match r with
          | 0 => rfl
          | 1 => rfl
          | r + 2 => rfl
        rw [this] at hy; cases hy
    subst hn
    match r, hy with
    | 0, _ => exact ⟨rfl, rfl, rfl⟩
    | 1, hy =>
      have : ∀ y, callAt (RemoteEngineEx.after RemoteEngineEx.told) 1 0 0 = some y → y.command.id ≠ (SystemEx.step "v").id := by
        intro y hy
        have h1 : (callAt (RemoteEngineEx.after RemoteEngineEx.told) 1 0 0).map (fun y => y.command.id) = some (SystemEx.step "w").id := rfl
        rw [hy] at h1
        simp only [Option.map_some, Option.some.injEq] at h1
        rw [h1]
        decide
      exact absurd he (this y hy)
    | r + 2, hy =>
      have : callAt (RemoteEngineEx.after RemoteEngineEx.told) (r + 2) 0 0 = none := rfl
      rw [this] at hy; cases hy
  · have hall : (RemoteEngineEx.after RemoteEngineEx.told).sys.runs.all (fun ρ => ρ.trace.all fun e => match e.2 with | .stepCompleted _ => false | _ => true) = true := by
      decide +kernel
    have := List.all_eq_true.1 (List.all_eq_true.1 hall ρ (List.mem_of_getElem? hr)) _ hm
    cases this

set_option maxRecDepth 8000 in
/-- The hypotheses of `C117_signal_carried_partial` are met. -/
example : ∃ x t, RemoteEngineReach RemoteEngineEx.told (RemoteEngineEx.after RemoteEngineEx.told) ∧
    BusyRemotely (RemoteEngineEx.after RemoteEngineEx.told) 0 0 0 (SystemEx.step "v") ∧
    callAt (RemoteEngineEx.after RemoteEngineEx.told) 0 0 0 = some x ∧
    OnlyCallFor (RemoteEngineEx.after RemoteEngineEx.told) 0 0 0 (SystemEx.step "v").id ∧
    taskAt (RemoteEngineEx.after RemoteEngineEx.told).sys 0 0 = some t ∧ t.sig.signal = some .cancel ∧ x.remote.signal = none := by
  refine ⟨_, _, rfl, ⟨_, rfl, rfl, rfl, rfl⟩, rfl, RemoteEngineEx.only_told, rfl, rfl, rfl⟩

set_option maxRecDepth 8000 in
/-- The hypotheses of `C117_cancellation_partial` are met. -/
example : ∃ x t t0 d ref, RemoteEngineReach RemoteEngineEx.asked (RemoteEngineEx.after RemoteEngineEx.asked) ∧
    (⟨"v", "a"⟩, true) ∈ (RemoteEngineEx.after RemoteEngineEx.asked).sys.answers ∧
    AnnouncedOnce (RemoteEngineEx.after RemoteEngineEx.asked).sys ⟨"v", "a"⟩ ∧
    BusyRemotely (RemoteEngineEx.after RemoteEngineEx.asked) 0 0 0 (SystemEx.step "v") ∧
    taskAt (RemoteEngineEx.after RemoteEngineEx.asked).sys 0 0 = some t ∧ t.pc = .select (SystemEx.step "v") t0 d ref ∧
    callAt (RemoteEngineEx.after RemoteEngineEx.asked) 0 0 0 = some x ∧ x.net.sig.signal = none := by
  refine ⟨_, _, _, _, _, rfl, by decide +kernel, ?_, ⟨_, rfl, rfl, rfl, rfl⟩, rfl, rfl, rfl, rfl⟩
  have key : ∀ r i, Announced (RemoteEngineEx.after RemoteEngineEx.asked).sys ⟨"v", "a"⟩ r i → r = 0 ∧ i = 0 := by
    rintro r i ⟨ρ, hr, hm⟩
    have hall : (RemoteEngineEx.after RemoteEngineEx.asked).sys.runs.zipIdx.all (fun q => q.1.trace.all fun e =>
        match e.2 with | .runJob j => decide (j = ⟨"v", "a"⟩ → q.2 = 0 ∧ e.1 = some 0) | _ => true) = true := by
      decide +kernel
    have h1 := List.all_eq_true.1 hall (ρ, r) (List.mk_mem_zipIdx_iff_getElem?.2 hr)
    unfold eventsOf at hm
    obtain ⟨e, he1, he2⟩ := List.mem_filterMap.1 hm
    have h2 := List.all_eq_true.1 h1 e he1
    split at he2
    · rename_i heq
      simp only [Option.some.injEq] at he2
      rw [he2] at h2
      simp only [decide_eq_true_eq] at h2
      obtain ⟨q1, q2⟩ := h2 trivial
      rw [q2] at heq
      simp at heq
      exact ⟨q1, heq.symm⟩
    · cases he2
  intro r i r' i' h1 h2
  obtain ⟨rfl, rfl⟩ := key r i h1
  obtain ⟨rfl, rfl⟩ := key r' i' h2
  exact ⟨rfl, rfl⟩

set_option maxRecDepth 20000 in
/-- **C117 fails** in an accepted configuration, with no failure anywhere: a job with dependencies may be started twice (C02); when it is
cancelled, the job run that is told passes the signal on to its server, which takes it, but gives it to the runner that executes the step for
the other job run.  The runner executing the step that was signalled gets nothing, and no move that carries the signal on is left. -/
theorem C117_refuted : ∃ (env : ParseEnv) (c : UserWorkflow) (wf : Workflow) (acts : List RemoteEngineAct) (E : RemoteEngine) (st : Step)
    (t t' : SysTask) (x y : RemoteExec),
    buildWorkflow env "w" c = .ok wf ∧ Spec.started (remoteEngineMoves acts) = [wf] ∧ RemoteEngineReach acts E ∧
    BusyRemotely E 0 3 0 st ∧ taskAt E.sys 0 3 = some t ∧ t.sig.signal = some .cancel ∧ callAt E 0 3 0 = some x ∧
    x.net.sigSent = [.cancel] ∧ x.net.cli = .streaming ∧ x.remote.signal = none ∧
    BusyRemotely E 0 2 0 st ∧ taskAt E.sys 0 2 = some t' ∧ t'.sig.signal = none ∧ callAt E 0 2 0 = some y ∧ y.remote.signal = some .cancel ∧
    (∀ a, carriesOn 0 3 0 a = true → E.step a = none) ∧ ∀ i n, FaultFree (callMoves 0 i n acts) := by
  refine ⟨ParserEx.env, EngineEx.config, EngineEx.wf, RemoteEngineEx.astray, RemoteEngineEx.after RemoteEngineEx.astray, TimingEx.step "c", _, _, _, _,
    by decide, rfl, rfl, ⟨_, rfl, rfl, rfl, rfl⟩, rfl, rfl, rfl, rfl, rfl, rfl, ⟨_, rfl, rfl, rfl, rfl⟩, rfl, rfl, rfl, rfl, ?_, ?_⟩
  · intro a ha
    unfold carriesOn at ha
    split at ha
    all_goals first
      | (simp only [Bool.and_eq_true, beq_iff_eq] at ha
         obtain ⟨⟨rfl, rfl⟩, rfl⟩ := ha
         rfl)
      | cases ha
  · intro i n a ha
    simp only [callMoves, List.mem_filterMap] at ha
    obtain ⟨b, hb, he⟩ := ha
    have hall : RemoteEngineEx.astray.all (fun | .net _ _ _ a => !isFault a | .signalFailed _ _ _ _ => false | _ => true) = true := by
      decide +kernel
    have := List.all_eq_true.1 hall b hb
    cases b with
    | net r0 i0 n0 a0 =>
      simp only at he this
      split at he
      · cases he; simpa using this
      · cases he
    | signalFailed r0 i0 n0 b0 => cases this
    | _ => cases he

end AstroRun
