import Verif.Props.EndToEnd
import Verif.Props.FairSilent
import Verif.Props.FairRemoteSilent

/-! # C128: from a configuration to a returned result, though processes and servers hang -/

namespace AstroRun
open Spec EndLem

namespace EndSilentLem

/-- The parser gives every step an id of its own. -/
theorem parsed_distinct {env : ParseEnv} {id : Id} {w : UserWorkflow} {wf : Workflow} (hu : UniqueKeys w)
    (hb : buildWorkflow env id w = .ok wf) : DistinctSteps wf := by
  intro k j hj
  obtain ⟨_, _, _, hids, _⟩ := C36_parsed_identifiers env id w wf hu (build_parse hb)
  rw [List.nodup_iff_getElem?_ne_getElem?]
  intro m n hmn hn e
  rw [List.length_map] at hn
  rw [List.getElem?_map, List.getElem?_map, List.getElem?_eq_getElem (by omega), List.getElem?_eq_getElem hn] at e
  simp only [Option.map_some, Option.some.injEq] at e
  rw [(hids k j hj).2 m (by omega), (hids k j hj).2 n hn] at e
  have := congrArg StepId.number e
  simp at this
  omega

/-- The parser gives jobs and steps ids of their own. -/
theorem parsed_own {env : ParseEnv} {id : Id} {w : UserWorkflow} {wf : Workflow} (hu : UniqueKeys w)
    (hb : buildWorkflow env id w = .ok wf) : OwnIds wf := by
  obtain ⟨_, _, _, hids, _⟩ := C36_parsed_identifiers env id w wf hu (build_parse hb)
  refine ⟨?_, ?_⟩
  · intro k j k' j' hj hj' he
    rw [(hids k j hj).1, (hids k' j' hj').1] at he
    simpa using he
  · intro k j hj s hs
    obtain ⟨i, hi, rfl⟩ := List.getElem_of_mem hs
    rw [(hids k j hj).2 i hi, (hids k j hj).1]
    rfl

theorem parsed_line {env : ParseEnv} {id : Id} {w : UserWorkflow} {wf : Workflow} (hu : UniqueKeys w)
    (hb : buildWorkflow env id w = .ok wf) (hl : InOneLine w) : NoParallelDependents wf := by
  intro k j hj hd x j' hj' hne
  obtain ⟨uj, hm, _, hdep⟩ := means hu hb hj
  obtain ⟨uj', hm', _, _⟩ := means hu hb hj'
  rcases hl k uj hm (by rw [← hdep]; exact hd) x uj' hm' hne with h | h
  · exact .inl (cyclic_wf hu hb h)
  · exact .inr (cyclic_wf hu hb h)

theorem keepIds_start {acts : List RemoteEngineAct} (hi : RemoteHooksKeepIds acts) (wf : Workflow) :
    RemoteHooksKeepIds (acts ++ [.sys (.start wf)]) := by
  intro pre r i b s post he
  rcases List.eq_nil_or_concat post with rfl | ⟨post', x, rfl⟩
  · obtain ⟨_, hx⟩ := List.append_inj' he rfl
    simp at hx
  · have : acts ++ [.sys (.start wf)] = (pre ++ RemoteEngineAct.sys (.task r i (.nextStep b s)) :: post') ++ [x] := by simpa using he
    obtain ⟨rfl, _⟩ := List.append_inj' this rfl
    exact hi pre r i b s post' rfl

end EndSilentLem
open EndSilentLem

/-- **C128** (local runner) As `C122_local`, but the processes of the run may hang: each of them writes finitely much, and need not end.
The run returns all the same, skipped or having carried out the configuration, since time passes and steps time out. -/
theorem C128_local (env : ParseEnv) (id : Id) (w : UserWorkflow) (wf : Workflow) (hu : UniqueKeys w)
    (hb : buildWorkflow env id w = .ok wf) (hc : ¬ HasCycle w) (setup : EngineSetup) (f : Nat → LocalEngine) (a : Nat → EngineAct)
    (hE : EngineEndless setup f a) (hap : ∀ n, Apart (engineMoves (firstMoves a n))) (hk : ∀ n, EngineHooksKeepJobs setup (firstMoves a n))
    (n0 : Nat) (hst : a n0 = .sys (.start wf)) (r : Nat) (hr : r = nextRun (engineMoves (firstMoves a n0))) (hf : FairSilentLocalRun f a r) :
    ∃ n ρ res, n0 < n ∧ (f n).sys.runs[r]? = some ρ ∧ ρ.pc = .returned res ∧
      (LeftOut id w ρ res ∨ CarriedOut env id w (fun i jr =>
        SameSteps (forRun setup r) (handedOver (eventsOf i ρ.trace)) ((f n).tasks r i) (executedSteps jr.steps)) ρ res) := by
  obtain ⟨_, ρ0, _, _, h0, hw0⟩ := local_run hE hap hst (Nat.lt_succ_self n0)
  obtain ⟨p1, p2, p3, p4, p5⟩ := C06_parsed_workflows env id w wf hu hb hc
  rw [← hr] at h0
  subst hw0
  obtain ⟨n, ρ, res, h1, h2, h3⟩ := C123_silent_processes_runs_return setup f a hE hap hk r (n0 + 1) ρ0 h0 p1 p2 p3 p4 p5
    hf.main hf.job hf.recv hf.timer hf.task hf.time hf.processes
  obtain ⟨sa, ρ', hsa, hA, h4, h5⟩ := local_run hE hap hst h1
  rw [← hr, h2] at h4
  cases h4
  refine ⟨n, ρ, res, h1, h2, h3, outcome hu hsa hA h2 (h5 ▸ hb) h3 ?_⟩
  intro i t jr ht hj
  exact C100_job setup _ _ (FairLocalLem.endless_engine hE n) r i ρ h2 t ht jr hj

/-- **C128** (remote runner, configurations of any shape, if in this run no job is started twice) as `C128_remote`. -/
theorem C128_remote_once (env : ParseEnv) (id : Id) (w : UserWorkflow) (wf : Workflow) (hu : UniqueKeys w)
    (hb : buildWorkflow env id w = .ok wf) (hc : ¬ HasCycle w) (f : Nat → RemoteEngine) (a : Nat → RemoteEngineAct)
    (hE : RemoteEndless f a) (hap : ∀ n, Apart (remoteEngineMoves (firstMoves a n))) (hk : ∀ n, RemoteEngineHooksKeepJobs (firstMoves a n))
    (hids : ∀ n, RemoteHooksKeepIds (firstMoves a n)) (n0 : Nat) (hst : a n0 = .sys (.start wf)) (r : Nat)
    (hr : r = nextRun (remoteEngineMoves (firstMoves a n0))) (hf : FairSilentRemoteRun f a r)
    (honce : ∀ n ρ k, n0 < n → (f n).sys.runs[r]? = some ρ → StartedOnce ρ k) :
    ∃ n ρ res, n0 < n ∧ (f n).sys.runs[r]? = some ρ ∧ ρ.pc = .returned res ∧
      (LeftOut id w ρ res ∨ CarriedOut env id w (fun i jr =>
        SameRemoteSteps (firstMoves a n) (f n) r i (handedOver (eventsOf i ρ.trace)) (executedSteps jr.steps)) ρ res) := by
  obtain ⟨_, ρ0, _, _, h0, hw0⟩ := remote_run hE hap hst (Nat.lt_succ_self n0)
  obtain ⟨p1, p2, p3, p4, p5⟩ := C06_parsed_workflows env id w wf hu hb hc
  rw [← hr] at h0
  subst hw0
  obtain ⟨n, ρ, res, h1, h2, h3⟩ := C127_silent_servers_runs_return_once f a hE hap hk hids r (n0 + 1) ρ0 h0 p1 p2 p3 p4 p5
    (fun n ρ k hn h => honce n ρ k (by omega) h) (parsed_distinct hu hb) hf.main hf.job hf.recv hf.timer hf.call hf.client hf.noticed hf.time hf.silent hf.obey
  obtain ⟨sa, ρ', hsa, hA, h4, h5⟩ := remote_run hE hap hst h1
  rw [← hr, h2] at h4
  cases h4
  refine ⟨n, ρ, res, h1, h2, h3, outcome hu hsa hA h2 (h5 ▸ hb) h3 ?_⟩
  intro i t jr ht hj
  exact C114_job _ _ (FairRemoteLem.endless_remote hE n) r i ρ h2 t ht jr hj

/-- **C128** (remote runner) As `C122_remote`, but the runners on the servers may hang: each of them writes finitely much and ends if a
signal reaches it, but not otherwise.  If every job with dependencies is in line with all the others (else it may be started twice, and
signals to it go astray, see C02 and C117), the run returns, skipped or having carried out the configuration. -/
theorem C128_remote (env : ParseEnv) (id : Id) (w : UserWorkflow) (wf : Workflow) (hu : UniqueKeys w)
    (hb : buildWorkflow env id w = .ok wf) (hc : ¬ HasCycle w) (hl : InOneLine w) (f : Nat → RemoteEngine) (a : Nat → RemoteEngineAct)
    (hE : RemoteEndless f a) (hap : ∀ n, Apart (remoteEngineMoves (firstMoves a n))) (hk : ∀ n, RemoteEngineHooksKeepJobs (firstMoves a n))
    (hids : ∀ n, RemoteHooksKeepIds (firstMoves a n)) (n0 : Nat) (hst : a n0 = .sys (.start wf)) (r : Nat)
    (hr : r = nextRun (remoteEngineMoves (firstMoves a n0))) (hf : FairSilentRemoteRun f a r) :
    ∃ n ρ res, n0 < n ∧ (f n).sys.runs[r]? = some ρ ∧ ρ.pc = .returned res ∧
      (LeftOut id w ρ res ∨ CarriedOut env id w (fun i jr =>
        SameRemoteSteps (firstMoves a n) (f n) r i (handedOver (eventsOf i ρ.trace)) (executedSteps jr.steps)) ρ res) := by
  obtain ⟨_, ρ0, _, _, h0, hw0⟩ := remote_run hE hap hst (Nat.lt_succ_self n0)
  obtain ⟨p1, _, _, _, _⟩ := C06_parsed_workflows env id w wf hu hb hc
  rw [← hr] at h0
  subst hw0
  exact C128_remote_once env id w _ hu hb hc f a hE hap hk hids n0 hst r hr hf fun n ρ k hn h =>
    RemoteSilentLem.started_once hE hap hk h0 p1 (parsed_line hu hb hl) hn h k

/-- **C128** (it can always be done, local runner) Every accepted configuration can be started at any time, under an id not used before,
such that the engine goes on forever with everybody but the processes doing their part in every run, and no process ever doing anything
again: `C128_local` is about something for each of them. -/
theorem C128_local_can_be_run (env : ParseEnv) (id : Id) (w : UserWorkflow) (wf : Workflow) (hu : UniqueKeys w)
    (hb : buildWorkflow env id w = .ok wf) (setup : EngineSetup) (acts : List EngineAct) (E : LocalEngine) (h : EngineReach setup acts E)
    (ha : Apart (engineMoves acts)) (hk : EngineHooksKeepJobs setup acts) (hnew : ∀ v ∈ Spec.started (engineMoves acts), v.id ≠ ⟨id⟩) :
    ∃ f a, EngineEndless setup f a ∧ firstMoves a acts.length = acts ∧ a acts.length = .sys (.start wf) ∧
      (∀ n, Apart (engineMoves (firstMoves a n))) ∧ (∀ n, EngineHooksKeepJobs setup (firstMoves a n)) ∧
      (∀ n, acts.length < n → withoutProcesses (a n) = true) ∧ ∀ r, FairSilentLocalRun f a r := by
  obtain ⟨E', hE', ha', hk'⟩ := local_start hu hb h ha hk hnew
  obtain ⟨f, a, q1, q2, _, q4, q5, q6, q7, q8⟩ := C123_fair_futures setup _ E' hE' ha' hk'
  rw [List.length_append, List.length_singleton] at q6
  rw [List.length_append, List.length_singleton, FairLocalLem.firstMoves_succ] at q2
  obtain ⟨e1, e2⟩ := List.append_inj' q2 rfl
  refine ⟨f, a, q1, e1, by simpa using e2, q4, q5, fun n hn => q6 n hn, fun r => ?_⟩
  obtain ⟨f1, f2, f3, f4, f5, f6⟩ := q8 r
  exact ⟨f1, f2, f3, f4, f5, q7, f6⟩

/-- **C128** (it can always be done, remote runner) The same on the remote runner, with runners on servers that never write again and
end only if a signal reached them. -/
theorem C128_remote_can_be_run (env : ParseEnv) (id : Id) (w : UserWorkflow) (wf : Workflow) (hu : UniqueKeys w)
    (hb : buildWorkflow env id w = .ok wf) (acts : List RemoteEngineAct) (E : RemoteEngine) (h : RemoteEngineReach acts E)
    (ha : Apart (remoteEngineMoves acts)) (hk : RemoteEngineHooksKeepJobs acts) (hi : RemoteHooksKeepIds acts)
    (hown : ∀ v ∈ Spec.started (remoteEngineMoves acts), OwnIds v)
    (hnew : ∀ v ∈ Spec.started (remoteEngineMoves acts), v.id ≠ ⟨id⟩) :
    ∃ f a, RemoteEndless f a ∧ firstMoves a acts.length = acts ∧ a acts.length = .sys (.start wf) ∧
      (∀ n, Apart (remoteEngineMoves (firstMoves a n))) ∧ (∀ n, RemoteEngineHooksKeepJobs (firstMoves a n)) ∧
      (∀ n, RemoteHooksKeepIds (firstMoves a n)) ∧ (∀ n, acts.length < n → ServersOnlyObey (f n) (a n)) ∧
      ∀ r, FairSilentRemoteRun f a r := by
  obtain ⟨E', hE', ha', hk'⟩ := remote_start hu hb h ha hk hnew
  have hown' : ∀ v ∈ Spec.started (remoteEngineMoves (acts ++ [.sys (.start wf)])), OwnIds v := by
    have : remoteEngineMoves (acts ++ [.sys (.start wf)]) = remoteEngineMoves acts ++ [.start wf] := by
      simp [remoteEngineMoves, List.filterMap_append]
    rw [this, show Spec.started (remoteEngineMoves acts ++ [.start wf]) = Spec.started (remoteEngineMoves acts) ++ [wf] from
      started_snoc _ (.start wf)]
    intro v hv
    rcases List.mem_append.1 hv with hv | hv
    · exact hown v hv
    · rw [List.mem_singleton.1 hv]
      exact parsed_own hu hb
  obtain ⟨f, a, q1, q2, _, q4, q5, q5', q6, q7, q8⟩ := C127_fair_futures _ E' hE' ha' hk' (keepIds_start hi wf) hown'
  rw [List.length_append, List.length_singleton] at q6
  rw [List.length_append, List.length_singleton, FairLocalLem.firstMoves_succ] at q2
  obtain ⟨e1, e2⟩ := List.append_inj' q2 rfl
  refine ⟨f, a, q1, e1, by simpa using e2, q4, q5, q5', fun n hn => q6 n hn, fun r => ?_⟩
  obtain ⟨f1, f2, f3, f4, f5, f6, f7, f8, f9⟩ := q8 r
  exact ⟨f1, f2, f3, f4, f5, f6, f7, q7, f8, f9⟩

namespace EndSilentLem
/-- build; test after build; deploy after both: one after another -/
theorem good_line : InOneLine ConfigEx.good := by
  have d : ∀ {k uj}, (k, uj) ∈ ConfigEx.good.jobs → ∀ x ∈ deps uj, Relation.TransGen (WaitsFor ConfigEx.good) k x :=
    fun hm x hx => .single ⟨_, hm, hx⟩
  intro k uj hm hd x uj' hm' hne
  simp only [ConfigEx.good, List.mem_cons, Prod.mk.injEq, List.not_mem_nil, or_false] at hm hm'
  have b : ("build", ConfigEx.job none) ∈ ConfigEx.good.jobs := by simp [ConfigEx.good]
  have t : ("test", ConfigEx.job (some ["build"])) ∈ ConfigEx.good.jobs := by simp [ConfigEx.good]
  have p : ("deploy", ConfigEx.job (some ["test", "build"])) ∈ ConfigEx.good.jobs := by simp [ConfigEx.good]
  rcases hm with ⟨rfl, rfl⟩ | ⟨rfl, rfl⟩ | ⟨rfl, rfl⟩ <;> rcases hm' with ⟨rfl, rfl⟩ | ⟨rfl, rfl⟩ | ⟨rfl, rfl⟩ <;>
    first
      | exact absurd rfl hne
      | exact absurd rfl hd
      | (refine .inl (d t _ ?_); simp [deps, ConfigEx.job]; done)
      | (refine .inl (d p _ ?_); simp [deps, ConfigEx.job]; done)
      | (refine .inr (d p _ ?_); simp [deps, ConfigEx.job]; done)
end EndSilentLem

/-- The hypotheses of `C128_remote_can_be_run`, and with it those of `C128_remote`, are met: a configuration with three jobs, one after
another, is started in the middle of two other workflows. -/
example : UniqueKeys ConfigEx.good ∧ InOneLine ConfigEx.good ∧
    (∃ wf, buildWorkflow ParserEx.env "x" ConfigEx.good = .ok wf ∧ wf.jobs.length = 3) ∧
    RemoteEngineReach RemoteEngineEx.two (RemoteEngineEx.after RemoteEngineEx.two) ∧ Apart (remoteEngineMoves RemoteEngineEx.two) ∧
    RemoteEngineHooksKeepJobs RemoteEngineEx.two ∧ RemoteHooksKeepIds RemoteEngineEx.two ∧
    (∀ v ∈ Spec.started (remoteEngineMoves RemoteEngineEx.two), OwnIds v) ∧
    (Spec.started (remoteEngineMoves RemoteEngineEx.two)).length = 2 ∧
    ∀ v ∈ Spec.started (remoteEngineMoves RemoteEngineEx.two), v.id ≠ ⟨"x"⟩ :=
  ⟨by decide, EndSilentLem.good_line, ⟨_, rfl, by decide⟩, rfl, RemoteEngineEx.apart_two, RemoteEngineEx.keeps_two,
    RemoteSilentLem.keepIds_two, RemoteSilentLem.owns_two, by decide, by decide⟩

end AstroRun
