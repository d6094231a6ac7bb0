import Verif.Lemmas.Faults
import Verif.Props.CancelAnswer
import Verif.Props.Lifecycle

/-! # C108: runs that are given up.  C109: jobs whose user code panics. -/

namespace AstroRun
open Spec

theorem fault_split {acts more : List FaultAct} {a : FaultAct} {F F' : Faulty} (h : FaultReach acts F)
    (h' : FaultReach (acts ++ a :: more) F') : ∃ F1, F.step a = some F1 ∧ runs Faulty.step F1 more = some F' := by
  unfold FaultReach at h h'
  rw [runs_append, h] at h'
  simp only [Option.bind_some, runs] at h'
  cases hs : F.step a with
  | none => simp [hs] at h'
  | some F1 => exact ⟨F1, rfl, by simpa [hs] using h'⟩

/-! ## Given up -/

/-- **C108** (the workflow stops) Once the future of `run` is dropped, whatever else happens: the workflow itself gives no
notification any more, starts no job any more, and does not return. -/
theorem C108_goes_quiet (acts more : List FaultAct) (F F' : Faulty) (r : Nat) (h : FaultReach acts F)
    (h' : FaultReach (acts ++ .drop r :: more) F') (ρ : SysRun) (hr : F.sys.runs[r]? = some ρ) :
    ∃ ρ', F'.sys.runs[r]? = some ρ' ∧ mainEvents ρ'.trace = mainEvents ρ.trace ∧
      ρ'.tasks.map (fun t => (t.key, t.job)) = ρ.tasks.map (fun t => (t.key, t.job)) ∧ ∀ res, ρ'.pc ≠ .returned res := by
  obtain ⟨F1, h1, h2⟩ := fault_split h h'
  rcases fault_step_cases h1 with ⟨b, M, e, _⟩ | ⟨_, ρ₁, e, hρ, _, hpc, rfl⟩ | ⟨_, _, t, e, _⟩ | ⟨_, _, t, res, e, _⟩ <;> cases e
  rw [hr] at hρ
  cases hρ
  obtain ⟨ρ', h3, h4⟩ := gone_stays h2 (r := r) (List.mem_cons_self ..) hr
  exact ⟨ρ', h3, h4.events, h4.jobs, by rw [h4.pc]; exact hpc⟩

/-- **C108** (its jobs go on) Whether or not the run they belong to was given up: every job that has been started, and whose user code
has not panicked, can be brought to its end by its own moves and its runner's, with all its notifications; only the result is
not delivered. -/
theorem C108_jobs_go_on (acts : List FaultAct) (F : Faulty) (h : FaultReach acts F) (hk : HooksKeepJobs (goes acts)) (r i : Nat)
    (t : SysTask) (ht : taskAt F.sys r i = some t) (hc : .crash r i ∉ acts) (hno : NoOther F.sys t.job.id r i) (ho : OwnSteps t.job) :
    ∃ (more : List SysAct) (F' : Faulty) (ρ' : SysRun) (jr : JobRunResult), (∀ a ∈ more, ownWork r i a) ∧
      FaultReach (acts ++ more.map .go) F' ∧ F'.sys.runs[r]? = some ρ' ∧ CompleteRun t.job (eventsOf i ρ'.trace) jr := by
  simp only [taskAt, Option.bind_eq_some_iff] at ht
  obtain ⟨ρ, hr, ht⟩ := ht
  obtain ⟨more, M', ρ', t', jr, q1, q2, _, q4, q5, q6, _, q8⟩ := job_can_finish _ (fault_sys h) hk hr ht rfl ho hno
  refine ⟨more, { F with sys := M' }, ρ', jr, q1, fault_extend h (fun a ha => ?_) q2, q4, ?_⟩
  · exact allows_own (fun hd => hc ((crashed_iff h r i).1 hd)) (q1 a ha)
  · have hok := taskOk_reach q2 q4 (List.mem_of_getElem? q5)
    have hpc : t'.pc = .finished jr ∨ t'.pc = .sent jr := by
      unfold SysTask.answer at q8
      split at q8 <;> cases q8
      · exact .inl ‹_›
      · exact .inr ‹_›
    obtain ⟨env, hf, _⟩ := hok.fits_known (by rcases hpc with e | e <;> simp [e])
    refine ⟨env, ?_⟩
    rw [(runLife_reach q2 q4).events i, q5, ← q6]
    exact hf.result jr hpc

/-- **C108** (and can be cancelled) A job of a run that was given up still takes its cancellation: if `cancel_job` was answered `Ok` and
the job's step is waiting, the step has been or can be told. -/
theorem C108_cancel_still_works (acts : List FaultAct) (F : Faulty) (h : FaultReach acts F) (hk : HooksKeepJobs (goes acts)) (r i : Nat)
    (t : SysTask) (ht : taskAt F.sys r i = some t) (hc : .crash r i ∉ acts) (hno : NoOther F.sys t.job.id r i) (s : Step) (t0 d : Time)
    (ref : Nat) (hpc : t.pc = .select s t0 d ref) (ha : (t.job.id, true) ∈ F.sys.answers) :
    JobAct.jobSignal ∈ jobMoves r i (goes acts) ∨ ∃ F' t', F.step (.go (.task r i .jobSignal)) = some F' ∧
      taskAt F'.sys r i = some t' ∧ t'.sig.signal = t.sig.signal.or (some .cancel) := by
  rcases C104_cancel_passed_on (goes acts) F.sys (fault_sys h) hk r i t ht hno s t0 d ref hpc ha with h1 | ⟨M', t', h1, h2, h3⟩
  · exact .inl h1
  · refine .inr ⟨{ F with sys := M' }, t', fault_go ?_ h1, h2, h3⟩
    exact allows_own (fun hd => hc ((crashed_iff h r i).1 hd)) ⟨_, rfl, by simp⟩

/-- **C108** (the result is lost) The result of a job of a run that was given up cannot be delivered; its task gives up and ends. -/
theorem C108_result_is_lost (acts : List FaultAct) (F : Faulty) (h : FaultReach acts F) (r i : Nat) (t : SysTask) (jr : JobRunResult)
    (ht : taskAt F.sys r i = some t) (hd : .drop r ∈ acts) (hp : t.pc = .finished jr) :
    F.step (.go (.task r i .send)) = none ∧ (.giveUp r i ∈ acts ∨ ∃ F', F.step (.giveUp r i) = some F') := by
  have hg := (dropped_iff h r).2 hd
  have hlost : (r, i) ∈ F.lost → .giveUp r i ∈ acts := by
    refine runs_induct (P := fun acts (F : Faulty) => (r, i) ∈ F.lost → .giveUp r i ∈ acts) (by simp) ?_ h
    intro acts a F F' _ ih hs
    rcases fault_step_cases hs with ⟨b, M, rfl, _, hb, rfl⟩ | ⟨r, ρ, rfl, _, _, _, rfl⟩ | ⟨r, i, t, rfl, _, _, _, rfl⟩ |
      ⟨r, i, t, res, rfl, _, _, _, rfl⟩ <;> grind
  constructor
  · simp [Faulty.step, Faulty.allows, TaskAct.ofRunner, hg]
  · by_cases hl : (r, i) ∈ F.lost
    · exact .inl (hlost hl)
    · right
      simp only [taskAt] at ht
      exact ⟨{ F with lost := (r, i) :: F.lost }, by simp [Faulty.step, ht, hp, hg, hl]⟩

/-! ## Panics -/

/-- **C109** (contained) What has gone wrong in other runs does not matter: a run that was not given up and whose own jobs did not panic
can be brought to its return by its own moves. -/
theorem C109_others_return_partial (acts : List FaultAct) (F : Faulty) (h : FaultReach acts F) (ha : Apart (goes acts))
    (hk : HooksKeepJobs (goes acts)) (r : Nat) (ρ : SysRun) (hr : F.sys.runs[r]? = some ρ) (hg : .drop r ∉ acts)
    (hd : ∀ i, .crash r i ∉ acts) (hu : UniqueJobs ρ.wf) (ho : OwnIds ρ.wf) (hdef : DepsDefined ρ.wf) (hc : Acyclic ρ.wf)
    (hne : ρ.wf.jobs ≠ []) :
    ∃ (more : List SysAct) (F' : Faulty) (ρ' : SysRun) (res : WorkflowRunResult), (∀ a ∈ more, ofRun r a) ∧
      FaultReach (acts ++ more.map .go) F' ∧ F'.sys.runs[r]? = some ρ' ∧ ρ'.pc = .returned res := by
  obtain ⟨more, M', ρ', res, q1, q2, _, _, q5, q6⟩ := C83_every_run_can_return _ _ (fault_sys h) ha hk r ρ hr hu ho hdef hc hne
  refine ⟨more, { F with sys := M' }, ρ', res, q1, fault_extend h (fun a hm => allows_run ?_ ?_ (q1 a hm)) q2, q5, q6⟩
  · exact fun hx => hg ((dropped_iff h r).1 hx)
  · exact fun i hx => hd i ((crashed_iff h r i).1 hx)

/-- **C109** (silence) A job whose user code panicked says nothing any more, whatever else happens, and never has a result. -/
theorem C109_silent (acts more : List FaultAct) (F F' : Faulty) (r i : Nat) (h : FaultReach acts F)
    (h' : FaultReach (acts ++ .crash r i :: more) F') (ρ : SysRun) (hr : F.sys.runs[r]? = some ρ) :
    ∃ ρ' t', F'.sys.runs[r]? = some ρ' ∧ ρ'.tasks[i]? = some t' ∧ eventsOf i ρ'.trace = eventsOf i ρ.trace ∧
      SysTask.answer t' = none := by
  obtain ⟨F1, h1, h2⟩ := fault_split h h'
  rcases fault_step_cases h1 with ⟨b, M, e, _⟩ | ⟨_, ρ₁, e, _⟩ | ⟨_, _, t, e, ht, _, hpc, rfl⟩ | ⟨_, _, t, res, e, _⟩ <;> cases e
  obtain ⟨t', h3, h4⟩ := dead_stays h2 (r := r) (i := i) (List.mem_cons_self ..) ht
  have h5 := h3
  simp only [taskAt, Option.bind_eq_some_iff] at h3
  obtain ⟨ρ', e1, e2⟩ := h3
  have e3 : ρ.tasks[i]? = some t := by simpa [taskAt, hr] using ht
  refine ⟨ρ', t', e1, e2, ?_, ?_⟩
  · rw [(runLife_reach (fault_sys h') e1).events i, (runLife_reach (fault_sys h) hr).events i, e2, e3]
    exact h4.evs
  · unfold SysTask.answer
    rw [h4.pc]
    cases hx : t.pc <;> simp [hx, SysPc.callsUsers] at hpc ⊢

/-- **C109** The runner is not part of the job's task: it goes on printing lines, and ends its stream, whatever has become of
the job and of the run. -/
theorem C109_runner_goes_on (F : Faulty) (r i : Nat) (a : TaskAct) (M : Sys) (ha : (∃ l, a = .push l) ∨ ∃ x, a = .endStream x)
    (hs : F.sys.step (.task r i a) = some M) : F.step (.go (.task r i a)) = some { F with sys := M } := by
  rcases ha with ⟨l, rfl⟩ | ⟨x, rfl⟩ <;> simp [Faulty.step, Faulty.allows, TaskAct.ofRunner, hs]

/-- **C109** (every job is needed) A run that returns, and was not skipped, has for each of its jobs the result of a job run whose user code
did not panic. -/
theorem C109_every_job_answered (acts : List FaultAct) (F : Faulty) (h : FaultReach acts F) (ha : Apart (goes acts)) (r : Nat)
    (ρ : SysRun) (hr : F.sys.runs[r]? = some ρ) (hu : UniqueJobs ρ.wf) (res : WorkflowRunResult) (hp : ρ.pc = .returned res)
    (hs : res.state ≠ .skipped) (k : Id) (job : Job) (hk : (k, job) ∈ ρ.wf.jobs) :
    ∃ i t jr, ρ.tasks[i]? = some t ∧ t.key = k ∧ .crash r i ∉ acts ∧ SysTask.answer t = some jr ∧ (k, jr) ∈ res.jobs := by
  have hS := fault_sys h
  have hT := runTimes_reach hS r ρ hr
  obtain ⟨hperm, _⟩ := C80_returned _ _ hS ha r ρ hr hu res hp hs
  have hin : k ∈ res.jobs.map Prod.fst := hperm.mem_iff.2 (List.mem_map.2 ⟨(k, job), hk, rfl⟩)
  obtain ⟨⟨k', jr⟩, h1, rfl⟩ := List.mem_map.1 hin
  obtain ⟨msg, h2, h3, h4⟩ := hT.results _ _ ((hT.done res (.inr hp)).2.2 _ _ h1)
  have hm := hT.msgs msg (List.mem_append_right _ h2)
  obtain ⟨t, e1, e2, e3⟩ := hm
  exact ⟨msg.sender, t, jr, e1, e2.trans h3, sender_alive h hr ⟨t, e1, e2, e3⟩, by simp [SysTask.answer, e3, h4], h1⟩

/-- **C109** (the workflow hangs) Once the user code of a job without dependencies has panicked, its workflow never returns. -/
theorem C109_hangs (acts : List FaultAct) (F : Faulty) (h : FaultReach acts F) (ha : Apart (goes acts)) (r i : Nat) (ρ : SysRun)
    (hr : F.sys.runs[r]? = some ρ) (hu : UniqueJobs ρ.wf) (k : Id) (job : Job) (hk : (k, job) ∈ ρ.wf.jobs)
    (hroot : job.dependsOn = []) (hi : RunsJob ρ i k) (hc : .crash r i ∈ acts) : ∀ res, ρ.pc ≠ .returned res := by
  intro res hp
  have hS := fault_sys h
  by_cases hs : res.state = .skipped
  · obtain ⟨t, ht, _⟩ := hi
    rw [skipped_no_tasks hS hr hp hs] at ht
    simp at ht
  · obtain ⟨j, t, jr, h1, h2, h3, _⟩ := C109_every_job_answered acts F h ha r ρ hr hu res hp hs k job hk
    obtain ⟨_, wacts, m, hm, hsr⟩ := C80_runs_do_not_interfere_partial _ _ hS ha r ρ hr
    have := C02_roots_single_run_partial ρ.wf hu wacts m hm i j k job hk hroot ((runsJob_iff hsr i k).2 hi)
      ((runsJob_iff hsr j k).2 ⟨t, h1, h2⟩)
    subst this
    exact h3 hc

/-- **C109** (dependents) Nor does any job start that depends, directly or not, on a job without dependencies whose user code panicked. -/
theorem C109_dependents_never_start (acts : List FaultAct) (F : Faulty) (h : FaultReach acts F) (ha : Apart (goes acts)) (r i : Nat)
    (ρ : SysRun) (hr : F.sys.runs[r]? = some ρ) (hu : UniqueJobs ρ.wf) (d : Id) (job : Job) (hd : (d, job) ∈ ρ.wf.jobs)
    (hroot : job.dependsOn = []) (hi : RunsJob ρ i d) (hc : .crash r i ∈ acts) (k : Id)
    (hdep : Relation.TransGen (DependsOn ρ.wf) k d) : ∀ j, ¬ RunsJob ρ j k := by
  have hS := fault_sys h
  have hT := runTimes_reach hS r ρ hr
  induction hdep using Relation.TransGen.head_induction_on with
  | single hkd =>
    intro j hj
    obtain ⟨msg, h1, h2, h3, _⟩ := C80_dependency_order _ _ hS ha r ρ hr hu j _ d hj hkd
    obtain ⟨_, wacts, m, hm, hsr⟩ := C80_runs_do_not_interfere_partial _ _ hS ha r ρ hr
    have := C02_roots_single_run_partial ρ.wf hu wacts m hm i msg.sender d job hd hroot ((runsJob_iff hsr i d).2 hi)
      ((runsJob_iff hsr _ d).2 h3)
    exact sender_alive h hr (hT.msgs msg (List.mem_append_right _ h1)) (this ▸ hc)
  | head hkc _ ih =>
    intro j hj
    obtain ⟨msg, _, _, h3, _⟩ := C80_dependency_order _ _ hS ha r ρ hr hu j _ _ hj hkc
    exact ih msg.sender h3

/-- **C109** (`cancel_job`) A job that panicked between its announcement and its completion stays cancellable: the first `cancel_job` is
answered `Ok`, however late, though nobody is there to react to it. -/
theorem C109_cancel_into_the_void (acts : List FaultAct) (F : Faulty) (h : FaultReach acts F) (hk : HooksKeepJobs (goes acts)) (r i : Nat)
    (t : SysTask) (ht : taskAt F.sys r i = some t) (hno : NoOther F.sys t.job.id r i) (hc : .crash r i ∈ acts)
    (hb : Event.runJob t.job.id ∈ t.evs) (hf : ∀ res : JobRunResult, Event.jobCompleted res ∉ t.evs)
    (hn : (t.job.id, true) ∉ F.sys.answers) :
    ∃ F', F.step (.go (.cancel t.job.id)) = some F' ∧ F'.sys.answers = F.sys.answers ++ [(t.job.id, true)] ∧
      F'.step (.go (.task r i .jobSignal)) = none := by
  obtain ⟨M', ok, h1, h2, h3⟩ := C104_cancel_answered _ _ (fault_sys h) hk r i t ht hno
  refine ⟨{ F with sys := M' }, fault_go rfl h1, ?_, ?_⟩
  · rw [h2, h3.2 ⟨hb, hf, hn⟩]
  · have := (crashed_iff h r i).2 hc
    simp [Faulty.step, Faulty.allows, TaskAct.ofRunner, this]

/-! ## The whole claim is false -/

/-- One job, its hook panics when it is told that the job runs. -/
def FaultEx.hang : List FaultAct :=
  ([SysAct.start (SystemEx.single "w")] ++ SystemEx.open' 0 ++ [SysAct.task 0 0 (.check true), SysAct.task 0 0 .emit]).map .go ++
    [.crash 0 0]

/-- The state a schedule leads to. -/
def FaultEx.after (acts : List FaultAct) : Faulty := (runs Faulty.step {} acts).getD {}

/-- The main task waits, nobody is left to send. -/
structure Hanging (F : Faulty) : Prop where
  dead : (0, 0) ∈ F.dead
  run : ∃ ρ t, F.sys.runs[0]? = some ρ ∧ ρ.pc = .loop ∧ ρ.chan = [] ∧ ρ.tasks = [t]

theorem Hanging.step {F F' : Faulty} {a : FaultAct} (h : Hanging F) (hs : F.step a = some F') : Hanging F' := by
  obtain ⟨hd, ρ, t, hr, hp, hch, ht⟩ := h
  have hlen := (List.getElem?_eq_some_iff.1 hr).1
  rcases fault_step_cases hs with ⟨b, M, rfl, hal, hb, rfl⟩ | ⟨r, ρ', rfl, _, _, _, rfl⟩ | ⟨r, i, t', rfl, _, _, _, rfl⟩ |
    ⟨r, i, t', res, rfl, _, _, _, rfl⟩
  · refine ⟨hd, ?_⟩
    rcases sys_step_cases hb with ⟨wf, rfl, rfl⟩ | ⟨n, b, ρ₁, ρ₂, rfl, hρ, hmm, rfl⟩ |
      ⟨n, k, b, ρ₁, t₁, g', ρ₂, rfl, hρ, ht₁, hmm, rfl⟩ | ⟨n, rfl, rfl⟩ | ⟨j, x, rfl, rfl⟩
    · exact ⟨ρ, t, by rw [List.getElem?_append_left hlen]; exact hr, hp, hch, ht⟩
    · by_cases hn : n = 0
      · subst hn
        rw [hr] at hρ
        cases hρ
        cases b <;> simp [SysRun.main, hp, hch] at hmm
      · exact ⟨ρ, t, by simp [hn, hr], hp, hch, ht⟩
    · by_cases hn : n = 0
      · subst hn
        rw [hr] at hρ
        cases hρ
        have hk : k = 0 := by
          have := (List.getElem?_eq_some_iff.1 ht₁).1
          simp [ht] at this
          exact this
        subst hk
        have hb' : b.ofRunner = true := by simpa [Faulty.allows, hd] using hal
        obtain ⟨t', e1, _, _, _, e5, _⟩ := taskStep_frame hmm
        refine ⟨ρ₂, t', by simp [hlen], e5.trans hp, ?_, by simp [e1, ht]⟩
        cases b <;> simp only [TaskAct.ofRunner, Bool.false_eq_true] at hb'
        all_goals
          simp only [Sys.taskStep, SysTask.step] at hmm
          split at hmm
          · simp only [Option.map_some, Option.some.injEq, Prod.mk.injEq] at hmm
            obtain ⟨_, rfl⟩ := hmm
            exact hch
          · simp at hmm
      · exact ⟨ρ, t, by simp [hn, hr], hp, hch, ht⟩
    · exact ⟨ρ, t, hr, hp, hch, ht⟩
    · exact ⟨ρ, t, hr, hp, hch, ht⟩
  · exact ⟨hd, ρ, t, hr, hp, hch, ht⟩
  · exact ⟨List.mem_cons_of_mem _ hd, ρ, t, hr, hp, hch, ht⟩
  · exact ⟨hd, ρ, t, hr, hp, hch, ht⟩

/-- **C109** is false in full: a parsed workflow with one job; a plugin panics when it is told that the job runs; that is all that goes
wrong, and `run` never returns, whatever happens afterwards. -/
theorem C109_refuted : ∃ (env : ParseEnv) (c : UserWorkflow) (wf : Workflow) (acts : List FaultAct) (F : Faulty),
    buildWorkflow env "w" c = .ok wf ∧ started (goes acts) = [wf] ∧ FaultReach acts F ∧ F.gone = [] ∧ F.dead = [(0, 0)] ∧
    ∀ (more : List FaultAct) (F' : Faulty), FaultReach (acts ++ more) F' →
      ∃ ρ, F'.sys.runs[0]? = some ρ ∧ ∀ res, ρ.pc ≠ .returned res := by
  refine ⟨ParserEx.env, SystemEx.config, SystemEx.single "w", FaultEx.hang, FaultEx.after FaultEx.hang, by decide, rfl, rfl, rfl, rfl, ?_⟩
  intro more F' h
  have h0 : Hanging (FaultEx.after FaultEx.hang) := ⟨by decide, _, _, rfl, rfl, rfl, rfl⟩
  have hreach : runs Faulty.step {} FaultEx.hang = some (FaultEx.after FaultEx.hang) := rfl
  unfold FaultReach at h
  rw [runs_append, hreach] at h
  have : Hanging F' := runs_induct (P := fun _ F' => Hanging F') h0 (fun _ _ _ _ _ ih hs => ih.step hs) h
  obtain ⟨_, ρ, t, h1, h2, _⟩ := this
  exact ⟨ρ, h1, by simp [h2]⟩

/-! ## Witnesses -/

/-- Two workflows; the first is given up after its step, the job of the second panics while its step is handed over. -/
def FaultEx.mixed : List FaultAct := SystemEx.half.map .go ++ [.drop 0, .crash 1 0]

/-- The second workflow is given up while its step is with the runner, and its job is cancelled then. -/
def FaultEx.left : List FaultAct :=
  SystemEx.half.map .go ++ [.drop 1] ++ [SysAct.cancel ⟨"w", "a"⟩, .task 1 0 .accept, .task 1 0 .emit, .task 1 0 .emit, .task 1 0 .enter].map .go

theorem FaultEx.goes_mixed : goes FaultEx.mixed = SystemEx.half := by
  rw [FaultEx.mixed, goes_append, goes_map]; simp [goes]

/-- C108: a run is given up while its job waits for its runner, the cancellation pending. -/
example : ∃ (F : Faulty) (t : SysTask) (s : Step) (t0 d : Time) (ref : Nat), FaultReach FaultEx.left F ∧ FaultAct.drop 1 ∈ FaultEx.left ∧
    taskAt F.sys 1 0 = some t ∧ FaultAct.crash 1 0 ∉ FaultEx.left ∧ NoOther F.sys t.job.id 1 0 ∧ OwnSteps t.job ∧
    t.pc = .select s t0 d ref ∧ (t.job.id, true) ∈ F.sys.answers := by
  have hr : FaultReach FaultEx.left (FaultEx.after FaultEx.left) := rfl
  refine ⟨FaultEx.after FaultEx.left, _, _, _, _, _, hr, by decide, rfl, by decide,
    SystemEx.second_only (fault_sys hr) (by decide +kernel), ?_, rfl, by decide⟩
  have : ∀ s ∈ [SystemEx.step "w"], s.id.jobId = ⟨"w", "a"⟩ := by decide
  exact this

/-- C109: the other run can return, the job that panicked is announced, not complete, and not cancelled. -/
example : ∃ (F : Faulty) (t : SysTask), FaultReach FaultEx.mixed F ∧ HooksKeepJobs (goes FaultEx.mixed) ∧ Apart (goes FaultEx.mixed) ∧
    taskAt F.sys 1 0 = some t ∧ NoOther F.sys t.job.id 1 0 ∧ FaultAct.crash 1 0 ∈ FaultEx.mixed ∧ Event.runJob t.job.id ∈ t.evs ∧
    (t.job.id, true) ∉ F.sys.answers := by
  have hr : FaultReach FaultEx.mixed (FaultEx.after FaultEx.mixed) := rfl
  refine ⟨FaultEx.after FaultEx.mixed, _, hr, FaultEx.goes_mixed ▸ SystemEx.keeps_half, FaultEx.goes_mixed ▸ SystemEx.apart_half, rfl,
    SystemEx.second_only (fault_sys hr) (by decide +kernel), by decide, by decide, by decide⟩

/-- The first workflow is given up when its job is nearly done. -/
def FaultEx.late : List FaultAct :=
  SystemEx.half.map .go ++ [.drop 0] ++ [SysAct.task 0 0 .finishJob, .task 0 0 .emit, .task 0 0 .emit, .task 0 0 .emit].map .go

/-- C108: the job of a run that was given up has finished and is about to deliver its result. -/
example : ∃ (F : Faulty) (t : SysTask) (jr : JobRunResult), FaultReach FaultEx.late F ∧ taskAt F.sys 0 0 = some t ∧
    FaultAct.drop 0 ∈ FaultEx.late ∧ t.pc = .finished jr ∧ jr.state = .succeeded :=
  ⟨FaultEx.after FaultEx.late, _, _, rfl, rfl, by decide, rfl, rfl⟩

/-- The first workflow's job panics, the second workflow is on its way. -/
def FaultEx.firstDead : List FaultAct := SystemEx.half.map .go ++ [.crash 0 0]

/-- C109: all hypotheses on the run that is not concerned are met. -/
example : ∃ (F : Faulty) (ρ : SysRun), FaultReach FaultEx.firstDead F ∧ Apart (goes FaultEx.firstDead) ∧
    HooksKeepJobs (goes FaultEx.firstDead) ∧ F.dead = [(0, 0)] ∧ F.sys.runs[1]? = some ρ ∧ FaultAct.drop 1 ∉ FaultEx.firstDead ∧
    (∀ i, FaultAct.crash 1 i ∉ FaultEx.firstDead) ∧ (∃ res, ρ.pc = .returned res) = False ∧ UniqueJobs ρ.wf ∧ OwnIds ρ.wf ∧
    DepsDefined ρ.wf ∧ Acyclic ρ.wf ∧ ρ.wf.jobs ≠ [] := by
  obtain ⟨M, ρ, h1, h2, h3, h4, h5⟩ := SystemEx.half_meets
  have hg : goes FaultEx.firstDead = SystemEx.half := by
    rw [FaultEx.firstDead, goes_append, goes_map]; simp [goes]
  have hM : M = SystemEx.after SystemEx.half := by
    have : SysReach SystemEx.half (SystemEx.after SystemEx.half) := rfl
    exact Option.some.inj (h1.symm.trans this)
  subst hM
  refine ⟨FaultEx.after FaultEx.firstDead, ρ, rfl, hg ▸ h2, hg ▸ h3, rfl, ?_, by decide, ?_, h5⟩
  · rw [← h4]; rfl
  · intro i hi
    simp [FaultEx.firstDead] at hi

/-- The second workflow's job panics, the first workflow returns. -/
def FaultEx.returned : List FaultAct :=
  SystemEx.half.map .go ++ [.crash 1 0] ++ (SystemEx.finish 0 ++ SystemEx.close 0).map .go

/-- C109: a run that has returned, with a job, while a job of another run panicked. -/
example : ∃ (F : Faulty) (ρ : SysRun) (res : WorkflowRunResult), FaultReach FaultEx.returned F ∧ Apart (goes FaultEx.returned) ∧
    F.dead = [(1, 0)] ∧ F.sys.runs[0]? = some ρ ∧ UniqueJobs ρ.wf ∧ ρ.pc = .returned res ∧ res.state ≠ .skipped ∧
    ∃ job, ("a", job) ∈ ρ.wf.jobs := by
  have hg : goes FaultEx.returned = SystemEx.half ++ (SystemEx.finish 0 ++ SystemEx.close 0) := by
    rw [FaultEx.returned, goes_append, goes_append, goes_map, goes_map]; simp [goes]
  refine ⟨FaultEx.after FaultEx.returned, _, _, rfl, ?_, rfl, rfl, List.nodup_singleton "a", rfl, by decide, _, List.mem_singleton_self _⟩
  rw [hg]
  refine ⟨by decide, ?_, ?_⟩
  · intro wf hwf k j hj
    have : started (SystemEx.half ++ (SystemEx.finish 0 ++ SystemEx.close 0)) = [SystemEx.single "v", SystemEx.single "w"] := rfl
    rw [this] at hwf
    simp only [List.mem_cons, List.not_mem_nil, or_false] at hwf
    rcases hwf with rfl | rfl <;> simp [SystemEx.single] at hj <;> obtain ⟨rfl, rfl⟩ := hj <;> rfl
  · intro r i b s hm wf hwf
    simp [SystemEx.half, SystemEx.open', SystemEx.queue, SystemEx.work, SystemEx.finish, SystemEx.close] at hm
    rcases hm with ⟨rfl, rfl, rfl, rfl⟩ | ⟨rfl, rfl, rfl, rfl⟩ <;> cases hwf <;> rfl

/-- A job panics on which another job depends. -/
def FaultEx.chainDead : List FaultAct :=
  ([SysAct.start TimingEx.chainWf, .main 0 (.check true), .main 0 .spawn, .main 0 .spawn, .main 0 .spawn] ++ TimingEx.first 0 "a").map .go ++
    [.crash 0 0]

/-- C109: a job without dependencies has panicked, another one depends on it. -/
example : ∃ (F : Faulty) (ρ : SysRun) (job : Job), FaultReach FaultEx.chainDead F ∧ Apart (goes FaultEx.chainDead) ∧
    F.sys.runs[0]? = some ρ ∧ UniqueJobs ρ.wf ∧ ("a", job) ∈ ρ.wf.jobs ∧ job.dependsOn = [] ∧ RunsJob ρ 0 "a" ∧
    FaultAct.crash 0 0 ∈ FaultEx.chainDead ∧ Relation.TransGen (DependsOn ρ.wf) "c" "a" := by
  refine ⟨FaultEx.after FaultEx.chainDead, _, TimingEx.job "a" [], rfl, ?_, rfl, ?_, ?_, rfl, ⟨_, rfl, rfl⟩, by decide, ?_⟩
  · have hg : goes FaultEx.chainDead = [.start TimingEx.chainWf, .main 0 (.check true), .main 0 .spawn, .main 0 .spawn, .main 0 .spawn] ++
        TimingEx.first 0 "a" := by
      rw [FaultEx.chainDead, goes_append, goes_map]; simp [goes]
    rw [hg]
    refine ⟨by decide, ?_, ?_⟩
    · intro wf hwf k j hj
      have hw : wf = TimingEx.chainWf := by simpa [started, TimingEx.first] using hwf
      subst hw
      simp [TimingEx.chainWf] at hj
      rcases hj with ⟨rfl, rfl⟩ | ⟨rfl, rfl⟩ <;> rfl
    · intro r i b s hm wf hwf
      simp [TimingEx.first] at hm
      obtain ⟨rfl, rfl, rfl, rfl⟩ := hm
      cases hwf
      rfl
  · show (["c", "a"] : List Id).Nodup
    decide
  · show ("a", TimingEx.job "a" []) ∈ TimingEx.chainWf.jobs
    decide
  · refine .single ?_
    show DependsOn TimingEx.chainWf "c" "a"
    exact ⟨TimingEx.job "c" ["a"], by decide, by decide⟩

end AstroRun
