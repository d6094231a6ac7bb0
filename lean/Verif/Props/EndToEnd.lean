import Verif.Spec.EndToEnd
import Verif.Props.Faults
import Verif.Props.Parser
import Verif.Props.WorkflowTerm
import Verif.Props.FairLocalFutures
import Verif.Props.FairRemoteFutures
import Verif.Props.RemoteEngine

/-! # C122: from a configuration to a returned result -/

namespace AstroRun
open Spec

namespace EndLem

theorem build_parse {env : ParseEnv} {id : Id} {w : UserWorkflow} {wf : Workflow} (h : buildWorkflow env id w = .ok wf) :
    parseWorkflow env id w = .ok wf := by
  unfold buildWorkflow at h
  split at h
  · simp at h
  · exact h

/-- What the parser makes of a configured job. -/
theorem means {env : ParseEnv} {id : Id} {w : UserWorkflow} {wf : Workflow} (hu : UniqueKeys w)
    (h : buildWorkflow env id w = .ok wf) {k : Id} {j : Job} (hj : (k, j) ∈ wf.jobs) :
    ∃ uj, (k, uj) ∈ w.jobs ∧ JobMeans env id k uj j ∧ j.dependsOn = deps uj := by
  have hp := build_parse h
  obtain ⟨_, _, _, _, _, h4⟩ := parseWorkflow_inv hu hp
  obtain ⟨uj, hm, _⟩ := h4 k j hj
  obtain ⟨r, cmds, a1, a2, a3, a4, a5, a6, a7⟩ := parsed_job_meaning env id w wf hu hp k uj hm j hj
  obtain ⟨_, _, _, hids, _⟩ := C36_parsed_identifiers env id w wf hu hp
  refine ⟨uj, hm, ⟨(hids k j hj).1, a4, a5, ⟨r, cmds, a1, a2, a3⟩, ?_⟩, a6⟩
  intro n s hs
  obtain ⟨hn, rfl⟩ := List.getElem?_eq_some_iff.1 hs
  exact (hids k j hj).2 n hn

theorem parsed_unique {env : ParseEnv} {id : Id} {w : UserWorkflow} {wf : Workflow} (hu : UniqueKeys w)
    (h : buildWorkflow env id w = .ok wf) : UniqueJobs wf :=
  (C36_parsed_identifiers env id w wf hu (build_parse h)).2.1

/-- A task that has an answer has completely run its job. -/
theorem answered {acts : List SysAct} {M : Sys} (h : SysReach acts M) {r : Nat} {ρ : SysRun} (hr : M.runs[r]? = some ρ) {i : Nat}
    {t : SysTask} (ht : ρ.tasks[i]? = some t) {jr : JobRunResult} (ha : SysTask.answer t = some jr) :
    CompleteRun t.job (eventsOf i ρ.trace) jr := by
  have hok := taskOk_reach h hr (List.mem_of_getElem? ht)
  have hpc : t.pc = .finished jr ∨ t.pc = .sent jr := by
    unfold SysTask.answer at ha
    split at ha <;> cases ha
    · exact .inl ‹_›
    · exact .inr ‹_›
  obtain ⟨env, hf, _⟩ := hok.fits_known (by rcases hpc with e | e <;> simp [e])
  refine ⟨env, ?_⟩
  rw [(runLife_reach h hr).events i, ht]
  exact hf.result jr hpc

/-- The two ways in which a run of a configuration returns. -/
theorem outcome {env : ParseEnv} {id : Id} {w : UserWorkflow} (hu : UniqueKeys w)
    {acts : List SysAct} {M : Sys} (h : SysReach acts M) (ha : Apart acts) {r : Nat} {ρ : SysRun} (hr : M.runs[r]? = some ρ)
    (hb : buildWorkflow env id w = .ok ρ.wf) {res : WorkflowRunResult} (hp : ρ.pc = .returned res)
    {ran : Nat → JobRunResult → Prop}
    (hran : ∀ (i : Nat) (t : SysTask) (jr : JobRunResult), ρ.tasks[i]? = some t → SysTask.answer t = some jr → ran i jr) :
    LeftOut id w ρ res ∨ CarriedOut env id w ran ρ res := by
  have huj := parsed_unique hu hb
  have hid : ρ.wf.id = ⟨id⟩ := (C36_parsed_identifiers env id w ρ.wf hu (build_parse hb)).1
  obtain ⟨_, wacts, m, hm, hsr⟩ := C80_runs_do_not_interfere_partial acts M h ha r ρ hr
  have hp' := hsr.pc.trans hp
  by_cases hs : res.state = .skipped
  · left
    cases wacts with
    | nil => simp [WfReach, runs, WfM.initial] at hm; subst hm; simp at hp'
    | cons a wacts =>
      cases a with
      | check b now =>
        obtain ⟨c1, c2⟩ := C08_skipped_workflow _ b now wacts m hm
        by_cases hc : ρ.wf.on = none ∨ b = true
        · exact absurd hs (c2 hc res hp').1
        · simp only [not_or, Bool.not_eq_true] at hc
          obtain ⟨_, d2, d3, _⟩ := c1 ⟨Option.ne_none_iff_exists'.1 hc.1, hc.2⟩
          refine ⟨?_, ?_, ?_⟩
          · rw [← (C38_workflow_fields env id w ρ.wf hu (build_parse hb)).2]; exact hc.1
          · rw [hp'] at d2
            injection d2 with d2
            rw [d2, hid]
          · rw [← hsr.trace, d3, hid]
      | _ => simp [WfReach, runs, WfM.step, WfM.initial] at hm
  · right
    obtain ⟨r1, r2, r3, r4⟩ := C80_returned acts M h ha r ρ hr huj res hp hs
    obtain ⟨o1, o2, o3⟩ := C04_workflow_outcome ρ.wf huj wacts m hm res hp' hs
    obtain ⟨b1, b2, b3⟩ := (C07_workflow_bracket ρ.wf wacts m hm).1 res hp' hs
    have hkeys : (ρ.wf.jobs.map Prod.fst).Perm (w.jobs.map Prod.fst) :=
      (List.perm_ext_iff_of_nodup huj hu).2 (C36_parsed_identifiers env id w ρ.wf hu (build_parse hb)).2.2.1
    have inv := wfInv_reach hm
    refine ⟨b2.trans hid, o3, r1.trans hkeys, ?_, ?_, ?_, ?_, by rw [r4, hid]⟩
    · intro k jr hk
      obtain ⟨i, t, t1, t2, t3⟩ := result_task h hr hp hk
      have hj := (runJobs_reach h r ρ hr).tasks i t t1
      rw [t2] at hj
      obtain ⟨uj, u1, u2, _⟩ := means hu hb hj
      exact ⟨uj, t.job, i, u1, u2, ⟨t, t1, t2⟩, answered h hr t1 t3, hran i t jr t1 t3⟩
    · intro k uj d i hk hd hi pre e post htr
      obtain ⟨t, t1, t2⟩ := hi
      have hj := (runJobs_reach h r ρ hr).tasks i t t1
      rw [t2] at hj
      obtain ⟨uj', u1, _, u3⟩ := means hu hb hj
      have : uj' = uj := by
        have h1 := AMap.get?_of_mem (m := w.jobs) hu u1
        rw [AMap.get?_of_mem (m := w.jobs) hu hk] at h1
        exact (Option.some.inj h1).symm
      subst this
      obtain ⟨msg, _, m2, m3, m4⟩ := C80_dependency_order acts M h ha r ρ hr huj i k d ⟨t, t1, t2⟩ ⟨t.job, hj, u3 ▸ hd⟩
      obtain ⟨job, j1, j2⟩ := m4 pre e post htr
      obtain ⟨ud, v1, v2, _⟩ := means hu hb j1
      exact ⟨ud, job, msg.sender, msg.result, v1, v2, m3, j2⟩
    · intro hg k jr hk
      have h1 : res.jobs = m.results := (returned_keys hm hp' hs).1
      rw [h1] at hk
      obtain ⟨msg, hmem, rfl, rfl⟩ := inv.vals k jr hk
      exact o2.1 hg msg hmem
    · intro hbad
      rw [o1] at hbad ⊢
      cases hl : lastBad (m.received.map WfMsg.result) with
      | none => simp [hl] at hbad
      | some x =>
        have hx := List.mem_of_getLast? hl
        simp only [List.mem_filter, List.mem_map] at hx
        obtain ⟨⟨msg, hmem, rfl⟩, _⟩ := hx
        obtain ⟨job, j1, j2, j3⟩ := received_run inv hmem
        obtain ⟨uj, u1, u2, _⟩ := means hu hb j2
        exact ⟨msg.key, uj, job, msg.sender, msg.result, u1, u2, (runsJob_iff hsr _ _).1 j1, hsr.trace ▸ j3, rfl⟩

/-- A configuration with a cycle gives a workflow with a cycle. -/
theorem cyclic_wf {env : ParseEnv} {id : Id} {w : UserWorkflow} {wf : Workflow} (hu : UniqueKeys w)
    (h : buildWorkflow env id w = .ok wf) {a b : Id} (hc : Relation.TransGen (WaitsFor w) a b) :
    Relation.TransGen (DependsOn wf) a b := by
  refine Relation.TransGen.lift (fun z => z) ?_ _ _ hc
  rintro x y ⟨uj, h1, h2⟩
  obtain ⟨_, _, _, _, hto, _⟩ := parseWorkflow_inv hu (build_parse h)
  obtain ⟨j, hj, hp⟩ := hto x uj h1
  obtain ⟨_, _, _, _, _, _, hdep, _⟩ := parseJob_inv hp
  exact ⟨j, hj, by rw [hdep]; exact h2⟩

theorem cycle_left_out {env : ParseEnv} {id : Id} {w : UserWorkflow} (hu : UniqueKeys w) (hc : HasCycle w)
    {acts : List SysAct} {M : Sys} (h : SysReach acts M) (ha : Apart acts) {r : Nat} {ρ : SysRun} (hr : M.runs[r]? = some ρ)
    (hb : buildWorkflow env id w = .ok ρ.wf) {res : WorkflowRunResult} (hp : ρ.pc = .returned res) : LeftOut id w ρ res := by
  rcases outcome (ran := fun _ _ => True) hu h ha hr hb hp (fun _ _ _ _ _ => trivial) with h1 | h1
  · exact h1
  · exfalso
    obtain ⟨k, hk⟩ := hc
    obtain ⟨_, ⟨uj, hm, _⟩, _⟩ := Relation.TransGen.head'_iff.1 hk
    have hmem : k ∈ res.jobs.map Prod.fst := h1.keys.mem_iff.2 (List.mem_map.2 ⟨_, hm, rfl⟩)
    obtain ⟨⟨k', jr⟩, hjr, rfl⟩ := List.mem_map.1 hmem
    obtain ⟨_, _, i, _, _, hi, _⟩ := h1.jobs _ jr hjr
    obtain ⟨_, wacts, m, hm, hsr⟩ := C80_runs_do_not_interfere_partial acts M h ha r ρ hr
    exact cycle_never_started (parsed_unique hu hb) hm _ (cyclic_wf hu hb hk) i ((runsJob_iff hsr i _).2 hi)

theorem firstMoves_add {α : Type} (a : Nat → α) (n d : Nat) : ∃ rest, firstMoves a (n + d) = firstMoves a n ++ rest := by
  induction d with
  | zero => exact ⟨[], by simp⟩
  | succ d ih =>
    obtain ⟨rest, h⟩ := ih
    exact ⟨rest ++ [a (n + d)], by rw [← Nat.add_assoc, FairLocalLem.firstMoves_succ, h, List.append_assoc]⟩

/-- Which run a `start` starts, seen from any later time. -/
theorem started_at {a : Nat → EngineAct} {n0 : Nat} {wf : Workflow} (hst : a n0 = .sys (.start wf)) (d : Nat) :
    (Spec.started (engineMoves (firstMoves a (n0 + 1 + d))))[nextRun (engineMoves (firstMoves a n0))]? = some wf := by
  obtain ⟨rest, h⟩ := firstMoves_add a (n0 + 1) d
  rw [h, FairLocalLem.firstMoves_succ, hst]
  simp [Spec.started, engineMoves, nextRun, List.filterMap_append]

theorem remote_started_at {a : Nat → RemoteEngineAct} {n0 : Nat} {wf : Workflow} (hst : a n0 = .sys (.start wf)) (d : Nat) :
    (Spec.started (remoteEngineMoves (firstMoves a (n0 + 1 + d))))[nextRun (remoteEngineMoves (firstMoves a n0))]? = some wf := by
  obtain ⟨rest, h⟩ := firstMoves_add a (n0 + 1) d
  rw [h, FairLocalLem.firstMoves_succ, hst]
  simp [Spec.started, remoteEngineMoves, nextRun, List.filterMap_append]

theorem local_run {setup : EngineSetup} {f : Nat → LocalEngine} {a : Nat → EngineAct} (hE : EngineEndless setup f a)
    (hap : ∀ n, Apart (engineMoves (firstMoves a n))) {n0 : Nat} {wf : Workflow} (hst : a n0 = .sys (.start wf)) {n : Nat} (hn : n0 < n) :
    ∃ sa ρ, SysReach sa (f n).sys ∧ Apart sa ∧ (f n).sys.runs[nextRun (engineMoves (firstMoves a n0))]? = some ρ ∧ ρ.wf = wf := by
  obtain ⟨d, rfl⟩ := Nat.exists_eq_add_of_le hn
  obtain ⟨sa, hsa, hf⟩ := (C100_both_views setup _ _ (FairLocalLem.endless_engine hE (n0 + 1 + d))).1
  have hA : Apart sa := apart_filter (hf ▸ hap _)
  have hw := started_at hst d
  rw [← hf, started_filter, ← (engineOk_reach hA hsa).wfs, List.getElem?_map, Option.map_eq_some_iff] at hw
  obtain ⟨ρ, h1, h2⟩ := hw
  exact ⟨sa, ρ, hsa, hA, h1, h2⟩

theorem remote_run {f : Nat → RemoteEngine} {a : Nat → RemoteEngineAct} (hE : RemoteEndless f a)
    (hap : ∀ n, Apart (remoteEngineMoves (firstMoves a n))) {n0 : Nat} {wf : Workflow} (hst : a n0 = .sys (.start wf)) {n : Nat} (hn : n0 < n) :
    ∃ sa ρ, SysReach sa (f n).sys ∧ Apart sa ∧ (f n).sys.runs[nextRun (remoteEngineMoves (firstMoves a n0))]? = some ρ ∧ ρ.wf = wf := by
  obtain ⟨d, rfl⟩ := Nat.exists_eq_add_of_le hn
  obtain ⟨sa, hsa, hf⟩ := (C114_both_views _ _ (FairRemoteLem.endless_remote hE (n0 + 1 + d))).1
  have hA : Apart sa := apart_filter (hf ▸ hap _)
  have hw := remote_started_at hst d
  rw [← hf, started_filter, ← (engineOk_reach hA hsa).wfs, List.getElem?_map, Option.map_eq_some_iff] at hw
  obtain ⟨ρ, h1, h2⟩ := hw
  exact ⟨sa, ρ, hsa, hA, h1, h2⟩

/-- One more workflow, with an id of its own, keeps the runs apart. -/
theorem apart_start {env : ParseEnv} {id : Id} {w : UserWorkflow} {wf : Workflow} (hu : UniqueKeys w)
    (hb : buildWorkflow env id w = .ok wf) {acts : List SysAct} (ha : Apart acts) (hnew : ∀ v ∈ Spec.started acts, v.id ≠ ⟨id⟩)
    (hold : ∀ r i b s, SysAct.task r i (.nextStep b s) ∈ acts → r < (Spec.started acts).length) :
    Apart (acts ++ [.start wf]) := by
  obtain ⟨hid, _, _, hids, _⟩ := C36_parsed_identifiers env id w wf hu (build_parse hb)
  have hs : Spec.started (acts ++ [.start wf]) = Spec.started acts ++ [wf] := started_snoc acts (.start wf)
  refine ⟨?_, ?_, ?_⟩
  · rw [hs, List.map_append, List.nodup_append]
    refine ⟨ha.distinct, by simp, ?_⟩
    intro x hx y hy e
    obtain ⟨v, hv, rfl⟩ := List.mem_map.1 hx
    simp only [List.map_cons, List.map_nil, List.mem_singleton] at hy
    exact hnew v hv (e.trans (hy.trans hid))
  · intro v hv k j hj
    rw [hs] at hv
    rcases List.mem_append.1 hv with h | h
    · exact ha.own v h k j hj
    · simp only [List.mem_singleton] at h
      subst h
      rw [(hids k j hj).1, hid]
  · intro r i b s hm v hv
    have hm : SysAct.task r i (.nextStep b s) ∈ acts := by simpa using hm
    rw [hs, List.getElem?_append_left (hold r i b s hm)] at hv
    exact ha.hooks r i b s hm v hv

/-- Who goes to its next step belongs to a run that was started. -/
theorem steps_of_started {acts : List SysAct} {M : Sys} (h : SysReach acts M) :
    ∀ r i b s, SysAct.task r i (.nextStep b s) ∈ acts → r < M.runs.length := by
  refine runs_induct (P := fun acts (M : Sys) => ∀ r i b s, SysAct.task r i (.nextStep b s) ∈ acts → r < M.runs.length) (by simp) ?_ h
  intro acts a M M' _ ih hs r i b s hm
  have hlen : M.runs.length ≤ M'.runs.length := by
    rcases sys_step_cases hs with ⟨wf, rfl, rfl⟩ | ⟨n, b, ρ₁, ρ₂, rfl, hρ, hm, rfl⟩ |
      ⟨n, i, b, ρ₁, t, g', ρ₂, rfl, hρ, ht, hm, rfl⟩ | ⟨n, rfl, rfl⟩ | ⟨j, x, rfl, rfl⟩ <;> simp
  rcases List.mem_append.1 hm with h1 | h1
  · exact Nat.lt_of_lt_of_le (ih r i b s h1) hlen
  · simp only [List.mem_singleton] at h1
    subst h1
    obtain ⟨ρ, t, _, hρ, _⟩ := task_act hs
    exact Nat.lt_of_lt_of_le (List.getElem?_eq_some_iff.1 hρ).1 hlen

end EndLem
open EndLem

/-- **C122** (local runner) Let a configuration without dependency cycle be accepted, and let the workflow made of it be started at some
time in an engine on the local runner, where any number of other runs go on.  If everybody who works for the run does so from time to time
and its processes end, the run returns: with the result Skipped, if the workflow has a condition; or else having carried out the
configuration, every executed step by a task of the runner's, which made a process for that step. -/
theorem C122_local (env : ParseEnv) (id : Id) (w : UserWorkflow) (wf : Workflow) (hu : UniqueKeys w)
    (hb : buildWorkflow env id w = .ok wf) (hc : ¬ HasCycle w) (setup : EngineSetup) (f : Nat → LocalEngine) (a : Nat → EngineAct)
    (hE : EngineEndless setup f a) (hap : ∀ n, Apart (engineMoves (firstMoves a n))) (hk : ∀ n, EngineHooksKeepJobs setup (firstMoves a n))
    (n0 : Nat) (hst : a n0 = .sys (.start wf)) (r : Nat) (hr : r = nextRun (engineMoves (firstMoves a n0))) (hf : FairLocalRun f a r) :
    ∃ n ρ res, n0 < n ∧ (f n).sys.runs[r]? = some ρ ∧ ρ.pc = .returned res ∧
      (LeftOut id w ρ res ∨ CarriedOut env id w (fun i jr =>
        SameSteps (forRun setup r) (handedOver (eventsOf i ρ.trace)) ((f n).tasks r i) (executedSteps jr.steps)) ρ res) := by
  obtain ⟨_, ρ0, _, _, h0, hw0⟩ := local_run hE hap hst (Nat.lt_succ_self n0)
  obtain ⟨p1, p2, p3, p4, p5⟩ := C06_parsed_workflows env id w wf hu hb hc
  rw [← hr] at h0
  subst hw0
  obtain ⟨n, ρ, res, h1, h2, h3⟩ := C113_processes_end_runs_return setup f a hE hap hk r (n0 + 1) ρ0 h0 p1 p2 p3 p4 p5
    hf.main hf.job hf.recv hf.task hf.processes
  obtain ⟨sa, ρ', hsa, hA, h4, h5⟩ := local_run hE hap hst h1
  rw [← hr, h2] at h4
  cases h4
  refine ⟨n, ρ, res, h1, h2, h3, outcome hu hsa hA h2 (h5 ▸ hb) h3 ?_⟩
  intro i t jr ht hj
  exact C100_job setup _ _ (FairLocalLem.endless_engine hE n) r i ρ h2 t ht jr hj

/-- **C122** (remote runner) The same for an engine on the remote runner: if everybody who works for the run does so from time to time,
the runners on the servers end and broken connections are noticed, the run returns, skipped or having carried out the configuration,
every executed step by a call to a server (or reported as having found no runner). -/
theorem C122_remote (env : ParseEnv) (id : Id) (w : UserWorkflow) (wf : Workflow) (hu : UniqueKeys w)
    (hb : buildWorkflow env id w = .ok wf) (hc : ¬ HasCycle w) (f : Nat → RemoteEngine) (a : Nat → RemoteEngineAct)
    (hE : RemoteEndless f a) (hap : ∀ n, Apart (remoteEngineMoves (firstMoves a n))) (hk : ∀ n, RemoteEngineHooksKeepJobs (firstMoves a n))
    (n0 : Nat) (hst : a n0 = .sys (.start wf)) (r : Nat) (hr : r = nextRun (remoteEngineMoves (firstMoves a n0))) (hf : FairRemoteRun f a r) :
    ∃ n ρ res, n0 < n ∧ (f n).sys.runs[r]? = some ρ ∧ ρ.pc = .returned res ∧
      (LeftOut id w ρ res ∨ CarriedOut env id w (fun i jr =>
        SameRemoteSteps (firstMoves a n) (f n) r i (handedOver (eventsOf i ρ.trace)) (executedSteps jr.steps)) ρ res) := by
  obtain ⟨_, ρ0, _, _, h0, hw0⟩ := remote_run hE hap hst (Nat.lt_succ_self n0)
  obtain ⟨p1, p2, p3, p4, p5⟩ := C06_parsed_workflows env id w wf hu hb hc
  rw [← hr] at h0
  subst hw0
  obtain ⟨n, ρ, res, h1, h2, h3⟩ := C118_servers_end_runs_return f a hE hap hk r (n0 + 1) ρ0 h0 p1 p2 p3 p4 p5
    hf.main hf.job hf.recv hf.call hf.noticed hf.servers
  obtain ⟨sa, ρ', hsa, hA, h4, h5⟩ := remote_run hE hap hst h1
  rw [← hr, h2] at h4
  cases h4
  refine ⟨n, ρ, res, h1, h2, h3, outcome hu hsa hA h2 (h5 ▸ hb) h3 ?_⟩
  intro i t jr ht hj
  exact C114_job _ _ (FairRemoteLem.endless_remote hE n) r i ρ h2 t ht jr hj

/-- **C122** (and only those) A configuration with a dependency cycle, though accepted, is never carried out: whatever the engine,
its runner and its users do, a run of it returns at most Skipped, and only if the workflow has a condition. -/
theorem C122_cycle_never_carried_out (env : ParseEnv) (id : Id) (w : UserWorkflow) (wf : Workflow) (hu : UniqueKeys w)
    (hb : buildWorkflow env id w = .ok wf) (hc : HasCycle w) (acts : List SysAct) (M : Sys) (h : SysReach acts M) (ha : Apart acts)
    (r : Nat) (ρ : SysRun) (hr : M.runs[r]? = some ρ) (hw : (Spec.started acts)[r]? = some wf) (res : WorkflowRunResult)
    (hp : ρ.pc = .returned res) : LeftOut id w ρ res := by
  rw [← (engineOk_reach ha h).wfs, List.getElem?_map, hr] at hw
  simp only [Option.map_some, Option.some.injEq] at hw
  exact cycle_left_out hu hc h ha hr (hw ▸ hb) hp

/-- **C122** (decided by the configuration, local runner) Whether the run of an unconditional workflow returns, when everybody does their
part, is decided by the configuration alone: it returns if and only if no job waits for itself. -/
theorem C122_local_returns_iff (env : ParseEnv) (id : Id) (w : UserWorkflow) (wf : Workflow) (hu : UniqueKeys w)
    (hb : buildWorkflow env id w = .ok wf) (hon : w.on = none) (setup : EngineSetup) (f : Nat → LocalEngine) (a : Nat → EngineAct)
    (hE : EngineEndless setup f a) (hap : ∀ n, Apart (engineMoves (firstMoves a n))) (hk : ∀ n, EngineHooksKeepJobs setup (firstMoves a n))
    (n0 : Nat) (hst : a n0 = .sys (.start wf)) (r : Nat) (hr : r = nextRun (engineMoves (firstMoves a n0))) (hf : FairLocalRun f a r) :
    (∃ n ρ res, n0 < n ∧ (f n).sys.runs[r]? = some ρ ∧ ρ.pc = .returned res) ↔ ¬ HasCycle w := by
  constructor
  · rintro ⟨n, ρ, res, h1, h2, h3⟩ hc
    obtain ⟨sa, ρ', hsa, hA, h4, h5⟩ := local_run hE hap hst h1
    rw [← hr, h2] at h4
    cases h4
    exact (cycle_left_out hu hc hsa hA h2 (h5 ▸ hb) h3).conditional hon
  · intro hc
    obtain ⟨n, ρ, res, h1, h2, h3, _⟩ := C122_local env id w wf hu hb hc setup f a hE hap hk n0 hst r hr hf
    exact ⟨n, ρ, res, h1, h2, h3⟩

/-- **C122** (decided by the configuration, remote runner) -/
theorem C122_remote_returns_iff (env : ParseEnv) (id : Id) (w : UserWorkflow) (wf : Workflow) (hu : UniqueKeys w)
    (hb : buildWorkflow env id w = .ok wf) (hon : w.on = none) (f : Nat → RemoteEngine) (a : Nat → RemoteEngineAct)
    (hE : RemoteEndless f a) (hap : ∀ n, Apart (remoteEngineMoves (firstMoves a n))) (hk : ∀ n, RemoteEngineHooksKeepJobs (firstMoves a n))
    (n0 : Nat) (hst : a n0 = .sys (.start wf)) (r : Nat) (hr : r = nextRun (remoteEngineMoves (firstMoves a n0))) (hf : FairRemoteRun f a r) :
    (∃ n ρ res, n0 < n ∧ (f n).sys.runs[r]? = some ρ ∧ ρ.pc = .returned res) ↔ ¬ HasCycle w := by
  constructor
  · rintro ⟨n, ρ, res, h1, h2, h3⟩ hc
    obtain ⟨sa, ρ', hsa, hA, h4, h5⟩ := remote_run hE hap hst h1
    rw [← hr, h2] at h4
    cases h4
    exact (cycle_left_out hu hc hsa hA h2 (h5 ▸ hb) h3).conditional hon
  · intro hc
    obtain ⟨n, ρ, res, h1, h2, h3, _⟩ := C122_remote env id w wf hu hb hc f a hE hap hk n0 hst r hr hf
    exact ⟨n, ρ, res, h1, h2, h3⟩

/-- A configuration can be started under an id not used before. -/
theorem EndLem.local_start {env : ParseEnv} {id : Id} {w : UserWorkflow} {wf : Workflow} (hu : UniqueKeys w)
    (hb : buildWorkflow env id w = .ok wf) {setup : EngineSetup} {acts : List EngineAct} {E : LocalEngine} (h : EngineReach setup acts E)
    (ha : Apart (engineMoves acts)) (hk : EngineHooksKeepJobs setup acts) (hnew : ∀ v ∈ Spec.started (engineMoves acts), v.id ≠ ⟨id⟩) :
    ∃ E', EngineReach setup (acts ++ [.sys (.start wf)]) E' ∧ Apart (engineMoves (acts ++ [.sys (.start wf)])) ∧
      EngineHooksKeepJobs setup (acts ++ [.sys (.start wf)]) := by
  obtain ⟨sa, hsa, hf⟩ := (C100_both_views setup _ _ h).1
  have hA : Apart sa := apart_filter (hf ▸ ha)
  have hlen : E.sys.runs.length = (Spec.started (engineMoves acts)).length := by
    rw [← hf, started_filter, ← (engineOk_reach hA hsa).wfs, List.length_map]
  have ha' : Apart (engineMoves (acts ++ [.sys (.start wf)])) := by
    rw [engineMoves_snoc]
    refine apart_start hu hb ha hnew ?_
    intro r i b s hm
    rw [← hlen]
    exact steps_of_started hsa r i b s (by rw [← hf] at hm; exact (List.mem_filter.1 hm).1)
  have hk' : EngineHooksKeepJobs setup (acts ++ [.sys (.start wf)]) := by
    intro pre r i b s post he
    rcases List.eq_nil_or_concat post with rfl | ⟨post', x, rfl⟩
    · obtain ⟨_, hx⟩ := List.append_inj' he rfl
      simp at hx
    · have : acts ++ [.sys (.start wf)] = (pre ++ EngineAct.sys (.task r i (.nextStep b s)) :: post') ++ [x] := by simpa using he
      obtain ⟨rfl, _⟩ := List.append_inj' this rfl
      exact hk pre r i b s post' rfl
  have hreach : ∃ E', EngineReach setup (acts ++ [.sys (.start wf)]) E' := by
    have : (E.step (.sys (.start wf))).isSome := by simp [LocalEngine.step, SysAct.byRunner, Sys.step]
    obtain ⟨E', hs⟩ := Option.isSome_iff_exists.1 this
    exact ⟨E', runs_snoc.2 ⟨E, h, hs⟩⟩
  obtain ⟨E', hE'⟩ := hreach
  exact ⟨E', hE', ha', hk'⟩

theorem EndLem.remote_start {env : ParseEnv} {id : Id} {w : UserWorkflow} {wf : Workflow} (hu : UniqueKeys w)
    (hb : buildWorkflow env id w = .ok wf) {acts : List RemoteEngineAct} {E : RemoteEngine} (h : RemoteEngineReach acts E)
    (ha : Apart (remoteEngineMoves acts)) (hk : RemoteEngineHooksKeepJobs acts)
    (hnew : ∀ v ∈ Spec.started (remoteEngineMoves acts), v.id ≠ ⟨id⟩) :
    ∃ E', RemoteEngineReach (acts ++ [.sys (.start wf)]) E' ∧ Apart (remoteEngineMoves (acts ++ [.sys (.start wf)])) ∧
      RemoteEngineHooksKeepJobs (acts ++ [.sys (.start wf)]) := by
  obtain ⟨sa, hsa, hf⟩ := (C114_both_views _ _ h).1
  have hA : Apart sa := apart_filter (hf ▸ ha)
  have hlen : E.sys.runs.length = (Spec.started (remoteEngineMoves acts)).length := by
    rw [← hf, started_filter, ← (engineOk_reach hA hsa).wfs, List.length_map]
  have ha' : Apart (remoteEngineMoves (acts ++ [.sys (.start wf)])) := by
    have : remoteEngineMoves (acts ++ [.sys (.start wf)]) = remoteEngineMoves acts ++ [.start wf] := by
      simp [remoteEngineMoves, List.filterMap_append]
    rw [this]
    refine apart_start hu hb ha hnew ?_
    intro r i b s hm
    rw [← hlen]
    exact steps_of_started hsa r i b s (by rw [← hf] at hm; exact (List.mem_filter.1 hm).1)
  have hk' : RemoteEngineHooksKeepJobs (acts ++ [.sys (.start wf)]) := by
    intro pre r i b s post he
    rcases List.eq_nil_or_concat post with rfl | ⟨post', x, rfl⟩
    · obtain ⟨_, hx⟩ := List.append_inj' he rfl
      simp at hx
    · have : acts ++ [.sys (.start wf)] = (pre ++ RemoteEngineAct.sys (.task r i (.nextStep b s)) :: post') ++ [x] := by simpa using he
      obtain ⟨rfl, _⟩ := List.append_inj' this rfl
      exact hk pre r i b s post' rfl
  have hreach : ∃ E', RemoteEngineReach (acts ++ [.sys (.start wf)]) E' := by
    have : (E.step (.sys (.start wf))).isSome := by simp [RemoteEngine.step, SysAct.byRunner, Sys.step]
    obtain ⟨E', hs⟩ := Option.isSome_iff_exists.1 this
    exact ⟨E', runs_snoc.2 ⟨E, h, hs⟩⟩
  obtain ⟨E', hE'⟩ := hreach
  exact ⟨E', hE', ha', hk'⟩

/-- **C122** (it can always be done, local runner) Every accepted configuration can be started at any time, under an id not used before,
such that the engine goes on forever with everybody doing their part in every run: `C122_local` is about something for each of them. -/
theorem C122_local_can_be_run (env : ParseEnv) (id : Id) (w : UserWorkflow) (wf : Workflow) (hu : UniqueKeys w)
    (hb : buildWorkflow env id w = .ok wf) (setup : EngineSetup) (acts : List EngineAct) (E : LocalEngine) (h : EngineReach setup acts E)
    (ha : Apart (engineMoves acts)) (hk : EngineHooksKeepJobs setup acts) (hnew : ∀ v ∈ Spec.started (engineMoves acts), v.id ≠ ⟨id⟩) :
    ∃ f a, EngineEndless setup f a ∧ firstMoves a acts.length = acts ∧ a acts.length = .sys (.start wf) ∧
      (∀ n, Apart (engineMoves (firstMoves a n))) ∧ (∀ n, EngineHooksKeepJobs setup (firstMoves a n)) ∧ ∀ r, FairLocalRun f a r := by
  obtain ⟨E', hE', ha', hk'⟩ := local_start hu hb h ha hk hnew
  obtain ⟨f, a, q1, q2, _, q4, q5, _, q7⟩ := C113_fair_futures setup _ E' hE' ha' hk'
  rw [List.length_append, List.length_singleton, FairLocalLem.firstMoves_succ] at q2
  obtain ⟨e1, e2⟩ := List.append_inj' q2 rfl
  refine ⟨f, a, q1, e1, by simpa using e2, q4, q5, fun r => ?_⟩
  obtain ⟨f1, f2, f3, f4, f5⟩ := q7 r
  exact ⟨f1, f2, f3, f4, f5⟩

/-- **C122** (it can always be done, remote runner) -/
theorem C122_remote_can_be_run (env : ParseEnv) (id : Id) (w : UserWorkflow) (wf : Workflow) (hu : UniqueKeys w)
    (hb : buildWorkflow env id w = .ok wf) (acts : List RemoteEngineAct) (E : RemoteEngine) (h : RemoteEngineReach acts E)
    (ha : Apart (remoteEngineMoves acts)) (hk : RemoteEngineHooksKeepJobs acts)
    (hnew : ∀ v ∈ Spec.started (remoteEngineMoves acts), v.id ≠ ⟨id⟩) :
    ∃ f a, RemoteEndless f a ∧ firstMoves a acts.length = acts ∧ a acts.length = .sys (.start wf) ∧
      (∀ n, Apart (remoteEngineMoves (firstMoves a n))) ∧ (∀ n, RemoteEngineHooksKeepJobs (firstMoves a n)) ∧ ∀ r, FairRemoteRun f a r := by
  obtain ⟨E', hE', ha', hk'⟩ := remote_start hu hb h ha hk hnew
  obtain ⟨f, a, q1, q2, _, q4, q5, _, q7⟩ := C118_fair_futures _ E' hE' ha' hk'
  rw [List.length_append, List.length_singleton, FairLocalLem.firstMoves_succ] at q2
  obtain ⟨e1, e2⟩ := List.append_inj' q2 rfl
  refine ⟨f, a, q1, e1, by simpa using e2, q4, q5, fun r => ?_⟩
  obtain ⟨f1, f2, f3, f4, f5, f6⟩ := q7 r
  exact ⟨f1, f2, f3, f4, f5, f6⟩

set_option maxRecDepth 8000 in
/-- The hypotheses of `C122_local_can_be_run`, and with it those of `C122_local`, are met: a configuration with three jobs is started in
the middle of two other workflows. -/
example : UniqueKeys ConfigEx.good ∧ (∃ wf, buildWorkflow ParserEx.env "x" ConfigEx.good = .ok wf ∧ wf.jobs.length = 3) ∧
    EngineReach EngineEx.setup EngineEx.two (EngineEx.after EngineEx.two) ∧ Apart (engineMoves EngineEx.two) ∧
    EngineHooksKeepJobs EngineEx.setup EngineEx.two ∧ (Spec.started (engineMoves EngineEx.two)).length = 2 ∧
    ∀ v ∈ Spec.started (engineMoves EngineEx.two), v.id ≠ ⟨"x"⟩ :=
  ⟨by decide, ⟨_, rfl, by decide⟩, rfl, EngineEx.apart_two, EngineEx.keeps_two, by decide, by decide⟩

/-- The same on the remote runner, in a fresh engine. -/
example : UniqueKeys ConfigEx.good ∧ (∃ wf, buildWorkflow ParserEx.env "x" ConfigEx.good = .ok wf) ∧
    RemoteEngineReach [] RemoteEngine.initial ∧ Apart (remoteEngineMoves []) ∧ RemoteEngineHooksKeepJobs [] ∧
    ∀ v ∈ Spec.started (remoteEngineMoves []), v.id ≠ ⟨"x"⟩ := by
  refine ⟨by decide, ⟨_, rfl⟩, rfl, ⟨by simp [remoteEngineMoves, Spec.started], by simp [remoteEngineMoves, Spec.started], by simp [remoteEngineMoves]⟩,
    fun pre r i b s post he => by simp at he, by simp [remoteEngineMoves, Spec.started]⟩

namespace EndEx
/-- the cyclic configuration, on pushes only -/
def guarded : UserWorkflow := { ConfigEx.cyclic with on := some (.event ["push"]) }
/-- it is started, and its condition does not hold -/
def acts (wf : Workflow) : List SysAct := [.start wf, .main 0 (.check false)]
end EndEx

/-- The hypotheses of `C122_cycle_never_carried_out` are met: a cyclic configuration with a condition, left out. -/
example : UniqueKeys EndEx.guarded ∧ HasCycle EndEx.guarded ∧ ∃ wf M ρ res, buildWorkflow ParserEx.env "w" EndEx.guarded = .ok wf ∧
    SysReach (EndEx.acts wf) M ∧ (Spec.started (EndEx.acts wf))[0]? = some wf ∧ M.runs[0]? = some ρ ∧ ρ.pc = .returned res := by
  refine ⟨by decide, ⟨"b", ?_⟩, _, _, _, _, rfl, rfl, rfl, rfl, rfl⟩
  exact .tail (.single (b := "c") ⟨ConfigEx.job (some ["c"]), by simp [EndEx.guarded, ConfigEx.cyclic], by decide⟩)
    ⟨ConfigEx.job (some ["b"]), by simp [EndEx.guarded, ConfigEx.cyclic], by decide⟩

end AstroRun
