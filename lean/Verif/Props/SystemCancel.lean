import Verif.Lemmas.SystemCancel

/-! # C82: cancelling jobs of a busy engine -/

namespace AstroRun
open Spec

/-- **C82** Every call of `cancel_job` is answered, in order, and the answers tell what was asked. -/
theorem C82_answers (acts : List SysAct) (M : Sys) (h : SysReach acts M) : M.answers.map Prod.fst = cancelled acts := by
  refine runs_induct (P := fun acts M => M.answers.map Prod.fst = cancelled acts) rfl ?_ h
  intro acts a M M' _ ih hs
  have happ : cancelled (acts ++ [a]) = cancelled acts ++ cancelled [a] := by simp [cancelled]
  rw [happ, ← ih]
  cases a with
  | start wf => simp only [Sys.step, Option.some.injEq] at hs; subst hs; simp [cancelled]
  | tick n => simp only [Sys.step, Option.some.injEq] at hs; subst hs; simp [cancelled]
  | cancel j => simp only [Sys.step, Option.some.injEq] at hs; subst hs; simp [cancelled]
  | main r b =>
    rcases sys_step_cases hs with ⟨_, h1, _⟩ | ⟨_, _, _, _, h1, _, _, rfl⟩ | ⟨_, _, _, _, _, _, _, h1, _⟩ | ⟨_, h1, _⟩ | ⟨_, _, h1, _⟩
    all_goals cases h1
    simp [cancelled]
  | task r i b =>
    rcases sys_step_cases hs with ⟨_, h1, _⟩ | ⟨_, _, _, _, h1, _⟩ | ⟨_, _, _, _, _, _, _, h1, _, _, _, rfl⟩ | ⟨_, h1, _⟩ | ⟨_, _, h1, _⟩
    all_goals cases h1
    simp [cancelled]

/-- **C82** A refused `cancel_job` changes nothing but the list of answers. -/
theorem C82_refused_changes_nothing (M M' : Sys) (j : JobId) (hs : M.step (.cancel j) = some M')
    (ha : M'.answers = M.answers ++ [(j, false)]) : M' = { M with answers := M.answers ++ [(j, false)] } := by
  simp only [Sys.step, Option.some.injEq] at hs
  subst hs
  simp only [List.append_cancel_left_eq, List.cons.injEq, Prod.mk.injEq, true_and, and_true] at ha
  have : (M.mgr.cancelJob j).1 = M.mgr := by
    unfold SigMgr.cancelJob at ha ⊢
    cases hg : M.mgr.getSignal j with
    | none => rfl
    | some ref =>
      simp only [hg] at ha ⊢
      unfold SigMgr.cancelRef at ha ⊢
      cases hc : M.mgr.heap[ref]? with
      | none => rfl
      | some c =>
        simp only [hc] at ha ⊢
        cases hsig : c.signal with
        | none => simp [SigState.set, hsig] at ha
        | some v =>
          have e3 : M.mgr.heap.set ref c = M.mgr.heap := by
            apply List.ext_getElem?
            intro n
            rw [List.getElem?_set]
            split
            · rename_i he; subst he; rw [hc]; simp [(List.getElem?_eq_some_iff.1 hc).1]
            · rfl
          simp [SigState.set, hsig, e3]
  rw [this]
  simp only [Sys.mk.injEq, true_and, List.append_cancel_left_eq, List.cons.injEq, Prod.mk.injEq, and_true]
  exact ha

/-- **C82** A step learns of a cancellation only if the job its id names was cancelled with success: no run, no job and no hook
of anyone else cancels it. -/
theorem C82_only_the_named_job (acts : List SysAct) (M : Sys) (h : SysReach acts M) (r i : Nat) (t : SysTask)
    (ht : taskAt M r i = some t) (s : Step) (hs : stepOf t.pc = some s) (hc : t.sig.signal = some .cancel) :
    (s.id.jobId, true) ∈ M.answers := by
  obtain ⟨ow, hI⟩ := cancelInv_reach h
  obtain ⟨ρ, hρ, htt⟩ := Option.bind_eq_some_iff.1 ht
  have := hI.tasks r ρ i t hρ htt
  unfold stepOf at hs
  split at hs
  all_goals first | (cases hs; rename_i hpc; rw [hpc] at this; exact this.2 hc) | cases hs

/-- **C82** (partial) Once `cancel_job` has succeeded, a step of that job that is waiting for its runner can be told at any time, and
then knows, unless the cancellation has already been passed on to a step of this job. Missing for the full claim: jobs announced
by several job runs (C02, C80), see `C82_refuted`. -/
theorem C82_reaches_the_job_partial (acts : List SysAct) (M : Sys) (h : SysReach acts M) (j : JobId) (ha : (j, true) ∈ M.answers)
    (hone : AnnouncedOnce M j) (r i : Nat) (t : SysTask) (ht : taskAt M r i = some t) (s : Step) (t0 d : Time) (ref : Nat)
    (hp : t.pc = .select s t0 d ref) (hj : s.id.jobId = j) :
    PassedOn acts j ∨ ∃ M' t', M.step (.task r i .jobSignal) = some M' ∧ taskAt M' r i = some t' ∧
      t'.sig.signal = t.sig.signal.or (some .cancel) := by
  obtain ⟨ow, hI⟩ := cancelInv_reach h
  obtain ⟨ρ, hρ, htt⟩ := Option.bind_eq_some_iff.1 ht
  have hR := hI.tasks r ρ i t hρ htt
  rw [hp] at hR
  obtain ⟨⟨p, hp1⟩, _⟩ := hR
  obtain ⟨ref', q, c, hq1, hq2, hq3⟩ := hI.accepted j ha
  rw [hj] at hp1
  have ann : ∀ (n : Nat) (p : Nat × Nat), ow[n]? = some (j, p) → Announced M j p.1 p.2 := by
    intro n p hn
    obtain ⟨ρ', t', e1, e2, e3⟩ := hI.regs n j p.1 p.2 hn
    refine ⟨ρ', e1, ?_⟩
    rw [(runLife_reach h e1).events, e2]
    exact e3
  have hpq : p = q := by
    obtain ⟨e1, e2⟩ := hone _ _ _ _ (ann _ _ hp1) (ann _ _ hq1)
    exact Prod.ext e1 e2
  subst hpq
  have hrr : ref = ref' := by
    have hn := hI.nodup
    have l1 := (List.getElem?_eq_some_iff.1 hp1).1
    have l2 := (List.getElem?_eq_some_iff.1 hq1).1
    have e1 : (ow.map Prod.snd)[ref]'(by simpa using l1) = p := by
      have := (List.getElem?_eq_some_iff.1 hp1).2
      simp [this]
    have e2 : (ow.map Prod.snd)[ref']'(by simpa using l2) = p := by
      have := (List.getElem?_eq_some_iff.1 hq1).2
      simp [this]
    exact (List.Nodup.getElem_inj_iff hn).1 (e1.trans e2.symm)
  subst hrr
  cases hno : c.isNotified with
  | true => exact .inl (hI.heard ref c _ hq2 hno hq1)
  | false =>
    right
    have hpoll : c.poll 0 = ({ c with isNotified := true }, some .cancel) := by simp [SigState.poll, hno, hq3]
    let t' : SysTask := { t with pc := .handling s t0 ref, sig := (t.sig.set .cancel).state }
    let M' : Sys := { M with mgr := { M.mgr with heap := M.mgr.heap.set ref { c with isNotified := true } }, runs := M.runs.set r (ρ.setTask i t') }
    refine ⟨M', t', ?_, ?_, ?_⟩
    · simp [Sys.step, hρ, htt, Sys.taskStep, hp, hq2, hpoll, M', t']
    · simp [M', taskAt, (List.getElem?_eq_some_iff.1 hρ).1, SysRun.setTask, (List.getElem?_eq_some_iff.1 htt).1]
    · simp only [t']
      unfold SigState.set
      split
      · rename_i v hv; simp [hv]
      · rename_i hv; simp [hv]

/-- **C82 fails** for a job that was started twice (C02), in an accepted configuration: `cancel_job` succeeds, two steps of the job
are waiting for their runners, nothing has been passed on, and one of them cannot be told. -/
theorem C82_refuted : ∃ (env : ParseEnv) (c : UserWorkflow) (wf : Workflow) (acts : List SysAct) (M : Sys) (j : JobId) (i i' : Nat)
    (t t' : SysTask) (s s' : Step) (t0 t0' d d' : Time) (ref ref' : Nat), buildWorkflow env "w" c = .ok wf ∧ started acts = [wf] ∧
    SysReach acts M ∧ M.answers = [(j, true)] ∧ (∀ r n, SysAct.task r n .jobSignal ∉ acts) ∧
    i ≠ i' ∧ taskAt M 0 i = some t ∧ taskAt M 0 i' = some t' ∧ t.pc = .select s t0 d ref ∧ t'.pc = .select s' t0' d' ref' ∧
    s.id.jobId = j ∧ s'.id.jobId = j ∧ M.step (.task 0 i .jobSignal) = none := by
  refine ⟨ParserEx.env, TimingEx.config, TimingEx.wf, CancelEx.again ++ [SysAct.cancel ⟨"w", "c"⟩],
    SystemEx.after (CancelEx.again ++ [SysAct.cancel ⟨"w", "c"⟩]), ⟨"w", "c"⟩, 2, 3, _, _, _, _, _, _, _, _, _, _, by decide, rfl, rfl, rfl, ?_,
    by decide, rfl, rfl, rfl, rfl, rfl, rfl, rfl⟩
  intro r n hm
  simp [CancelEx.again, CancelEx.taken, TimingEx.first, TimingEx.second] at hm

/-- The hypotheses are met: two jobs are running; `a` is cancelled, its step can be told, the other one's cannot. -/
example : ∃ (M : Sys) (t : SysTask) (s : Step) (t0 d : Time) (ref : Nat), SysReach (CancelEx.both ++ [SysAct.cancel ⟨"w", "a"⟩]) M ∧
    (⟨"w", "a"⟩, true) ∈ M.answers ∧ taskAt M 0 1 = some t ∧ t.pc = .select s t0 d ref ∧ s.id.jobId = ⟨"w", "a"⟩ ∧
    M.step (.task 0 0 .jobSignal) = none :=
  ⟨SystemEx.after (CancelEx.both ++ [SysAct.cancel ⟨"w", "a"⟩]), _, _, _, _, _, rfl, List.mem_singleton.2 rfl, rfl, rfl, rfl, rfl⟩

example : ∃ (M : Sys) (t : SysTask) (s : Step), SysReach (CancelEx.both ++ [SysAct.cancel ⟨"w", "a"⟩, .task 0 1 .jobSignal]) M ∧
    taskAt M 0 1 = some t ∧ stepOf t.pc = some s ∧ t.sig.signal = some .cancel :=
  ⟨SystemEx.after (CancelEx.both ++ [SysAct.cancel ⟨"w", "a"⟩, .task 0 1 .jobSignal]), _, _, rfl, rfl, rfl, rfl⟩

end AstroRun
