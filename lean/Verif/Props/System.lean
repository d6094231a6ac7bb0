import Verif.Lemmas.SystemReach
import Verif.Props.Workflow
import Verif.Props.Parser
import Verif.Spec.SystemEx

/-! # C80: many workflows at once -/

namespace AstroRun
open Spec

/-- **C80** Every run of every schedule of the engine, as long as the runs are apart, is a run of the workflow machine
of C01–C09: what one sees of a workflow does not depend on what else the engine is doing. -/
theorem C80_runs_do_not_interfere_partial (acts : List SysAct) (M : Sys) (h : SysReach acts M) (ha : Apart acts) (r : Nat)
    (ρ : SysRun) (hr : M.runs[r]? = some ρ) :
    (started acts)[r]? = some ρ.wf ∧ ∃ wacts m, WfReach ρ.wf wacts m ∧ SameRun m ρ := by
  have inv := engineOk_reach ha h
  refine ⟨by rw [← inv.wfs]; simp [hr], ?_⟩
  obtain ⟨E, hE⟩ := (inv.runs r ρ hr).future
  obtain ⟨wacts, reg, hreach, _⟩ := inv.sim r ρ hr E hE
  refine ⟨wacts, absRun (byEnv E) ρ reg, hreach, ⟨rfl, rfl, rfl, rfl, rfl, rfl, rfl, rfl, rfl, ?_⟩⟩
  apply List.ext_getElem?
  intro i
  simp only [List.getElem?_map, absRun_getElem?, Option.map_map]
  rfl

theorem runsJob_iff {m : WfM} {ρ : SysRun} (h : SameRun m ρ) (i : Nat) (k : Id) : IsRunOf m i k ↔ RunsJob ρ i k := by
  have := congrArg (fun l => l[i]?) h.tasks
  simp only [List.getElem?_map] at this
  unfold IsRunOf RunsJob
  constructor
  · rintro ⟨t, ht, rfl⟩
    rw [ht] at this
    cases hu : ρ.tasks[i]? with
    | none => simp [hu] at this
    | some u => simp [hu] at this; exact ⟨u, rfl, this.1.symm⟩
  · rintro ⟨t, ht, rfl⟩
    rw [ht] at this
    cases hu : m.tasks[i]? with
    | none => simp [hu] at this
    | some u => simp [hu] at this; exact ⟨u, rfl, this.1⟩

/-- **C80** In the whole engine: before a job run does anything, every job it depends on has completed and delivered. -/
theorem C80_dependency_order (acts : List SysAct) (M : Sys) (h : SysReach acts M) (ha : Apart acts) (r : Nat)
    (ρ : SysRun) (hr : M.runs[r]? = some ρ) (hu : UniqueJobs ρ.wf) (i : Nat) (k d : Id) (hi : RunsJob ρ i k)
    (hd : DependsOn ρ.wf k d) :
    ∃ msg ∈ ρ.received, msg.key = d ∧ RunsJob ρ msg.sender d ∧
      ∀ pre e post, ρ.trace = pre ++ (some i, e) :: post →
        ∃ job, (d, job) ∈ ρ.wf.jobs ∧ CompleteRun job (eventsOf msg.sender pre) msg.result := by
  obtain ⟨_, wacts, m, hm, hs⟩ := C80_runs_do_not_interfere_partial acts M h ha r ρ hr
  obtain ⟨msg, h1, h2, h3, h4⟩ := C01_dependency_order ρ.wf hu wacts m hm i k d ((runsJob_iff hs i k).2 hi) hd
  exact ⟨msg, hs.received ▸ h1, h2, (runsJob_iff hs _ _).1 h3, fun pre e post he => h4 pre e post (hs.trace.trans he)⟩

/-- **C80** In the whole engine: when a run returns (and was not skipped) its result has one entry per job, each the
result of a complete run of that job; the outcome is decided by the last failed or cancelled job; and the workflow's own
notifications are start, in progress, final state, completion. -/
theorem C80_returned (acts : List SysAct) (M : Sys) (h : SysReach acts M) (ha : Apart acts) (r : Nat)
    (ρ : SysRun) (hr : M.runs[r]? = some ρ) (hu : UniqueJobs ρ.wf) (res : WorkflowRunResult) (hp : ρ.pc = .returned res)
    (hs : res.state ≠ .skipped) :
    (res.jobs.map Prod.fst).Perm (ρ.wf.jobs.map Prod.fst) ∧
    (∀ k jr, (k, jr) ∈ res.jobs → ∃ i job, RunsJob ρ i k ∧ (k, job) ∈ ρ.wf.jobs ∧
      CompleteRun job (eventsOf i ρ.trace) jr) ∧
    res.state = (match lastBad (ρ.received.map WfMsg.result) with
      | none => .succeeded
      | some bad => bad.state) ∧
    mainEvents ρ.trace = [.runWorkflow ρ.wf.id, .workflowState ρ.wf.id .inProgress, .workflowState ρ.wf.id res.state,
      .workflowCompleted res] := by
  obtain ⟨_, wacts, m, hm, hsr⟩ := C80_runs_do_not_interfere_partial acts M h ha r ρ hr
  have hp' := hsr.pc.trans hp
  obtain ⟨n1, n2, _, n4⟩ := C03_result_completeness ρ.wf wacts m hm res hp' hs
  refine ⟨?_, ?_, ?_, ?_⟩
  · exact (List.perm_ext_iff_of_nodup n1 hu).2 n2
  · intro k jr hk
    obtain ⟨i, job, h1, h2, h3⟩ := n4 k jr hk
    exact ⟨i, job, (runsJob_iff hsr i k).1 h1, h2, hsr.trace ▸ h3⟩
  · rw [← hsr.received]
    exact (C04_workflow_outcome ρ.wf hu wacts m hm res hp' hs).1
  · rw [← hsr.trace]
    exact ((C07_workflow_bracket ρ.wf wacts m hm).1 res hp' hs).1

/-! ## Two runs of one workflow -/

/-- A run that nothing can move any more: its job task has panicked. -/
def Dead (ρ : SysRun) : Prop := ρ.pc = .loop ∧ ρ.chan = [] ∧ ∀ (i : Nat) (t : SysTask), ρ.tasks[i]? = some t → ∃ s, t.pc = .panicked s

theorem Dead.main {ρ : SysRun} (h : Dead ρ) (now : Time) (a : MainAct) : ρ.main now a = none := by
  obtain ⟨h1, h2, _⟩ := h
  cases a <;> simp [SysRun.main, h1, h2]

theorem Dead.task {ρ : SysRun} (h : Dead ρ) (g : SigMgr) (now : Time) (i : Nat) (t : SysTask) (ht : ρ.tasks[i]? = some t)
    (a : TaskAct) : Sys.taskStep g ρ now i t a = none := by
  obtain ⟨s, hs⟩ := h.2.2 i t ht
  cases a <;> simp [Sys.taskStep, SysTask.step, hs, SysPc.runnerActive]

theorem Dead.forever {M M' : Sys} {more : List SysAct} {r : Nat} {ρ : SysRun} (hr : M.runs[r]? = some ρ) (hd : Dead ρ)
    (h : runs Sys.step M more = some M') : M'.runs[r]? = some ρ := by
  induction more generalizing M with
  | nil => simp [runs] at h; subst h; exact hr
  | cons a more ih =>
    simp only [runs] at h
    split at h
    · rename_i M1 hs
      refine ih ?_ h
      cases a with
      | start wf =>
        simp only [Sys.step, Option.some.injEq] at hs
        subst hs
        simp only
        rw [List.getElem?_append_left (List.getElem?_eq_some_iff.1 hr).1]
        exact hr
      | main n a =>
        simp only [Sys.step] at hs
        cases hn : M.runs[n]? with
        | none => simp [hn] at hs
        | some ρ₁ =>
          cases hm : ρ₁.main M.now a with
          | none => simp [hn, hm] at hs
          | some ρ₂ =>
            simp [hn, hm] at hs
            subst hs
            by_cases he : n = r
            · subst he
              rw [hr] at hn
              cases hn
              rw [hd.main] at hm
              simp at hm
            · simp [he, hr]
      | task n i a =>
        simp only [Sys.step] at hs
        cases hn : M.runs[n]? with
        | none => simp [hn] at hs
        | some ρ₁ =>
          cases ht : ρ₁.tasks[i]? with
          | none => simp [hn, ht] at hs
          | some t =>
            cases hm : Sys.taskStep M.mgr ρ₁ M.now i t a with
            | none => simp [hn, ht, hm] at hs
            | some p =>
              simp [hn, ht, hm] at hs
              subst hs
              by_cases he : n = r
              · subst he
                rw [hr] at hn
                cases hn
                rw [hd.task _ _ _ _ ht] at hm
                simp at hm
              · simp [he, hr]
      | tick n =>
        simp only [Sys.step, Option.some.injEq] at hs
        subst hs
        exact hr
      | cancel j =>
        simp only [Sys.step, Option.some.injEq] at hs
        subst hs
        exact hr
    · simp at h

/-- **C80 fails** without the assumption that concurrent runs have different workflow ids: of two concurrent runs of the
same parsed workflow, the first succeeds, and its completion takes away the second's signal; the second panics inside its
job and never returns, whatever happens later. -/
theorem C80_refuted : ∃ (env : ParseEnv) (c : UserWorkflow) (wf : Workflow) (acts : List SysAct) (M : Sys),
    buildWorkflow env "w" c = .ok wf ∧ started acts = [wf, wf] ∧ SysReach acts M ∧
    (∃ (ρ : SysRun) (res : WorkflowRunResult), M.runs[0]? = some ρ ∧ ρ.pc = .returned res ∧ res.state = .succeeded) ∧
    ∀ (more : List SysAct) (M' : Sys), SysReach (acts ++ more) M' →
      ∀ (ρ : SysRun), M'.runs[1]? = some ρ → ∀ res, ρ.pc ≠ .returned res := by
  refine ⟨ParserEx.env, SystemEx.config, SystemEx.single "w", SystemEx.twice, SystemEx.after SystemEx.twice, by decide, rfl,
    rfl, ⟨_, _, rfl, rfl, rfl⟩, ?_⟩
  intro more M' h ρ hρ res hres
  have hreach : runs Sys.step {} SystemEx.twice = some (SystemEx.after SystemEx.twice) := rfl
  unfold SysReach at h
  rw [runs_append, hreach] at h
  have hd : Dead ((SystemEx.after SystemEx.twice).runs[1]'(by decide)) := by
    refine ⟨rfl, rfl, ?_⟩
    intro i t ht
    match i, ht with
    | 0, ht => cases ht; exact ⟨_, rfl⟩
  have := Dead.forever (r := 1) rfl hd h
  rw [this] at hρ
  cases hρ
  rw [hd.1] at hres
  simp at hres

/-! ## Witnesses -/

example : Apart SystemEx.two ∧ ∃ M, SysReach SystemEx.two M ∧
    ∀ r < 2, ∃ (ρ : SysRun) (res : WorkflowRunResult), M.runs[r]? = some ρ ∧ UniqueJobs ρ.wf ∧ ρ.pc = .returned res ∧
      res.state = .succeeded ∧ ρ.trace.length = 15 := by
  refine ⟨⟨by decide, ?_, ?_⟩, SystemEx.after SystemEx.two, rfl, ?_⟩
  · intro wf hwf k j hj
    have : started SystemEx.two = [SystemEx.single "v", SystemEx.single "w"] := rfl
    rw [this] at hwf
    simp only [List.mem_cons, List.not_mem_nil, or_false] at hwf
    rcases hwf with rfl | rfl <;> simp [SystemEx.single] at hj <;> obtain ⟨rfl, rfl⟩ := hj <;> rfl
  · intro r i b s hm wf hwf
    simp [SystemEx.two, SystemEx.open', SystemEx.queue, SystemEx.work, SystemEx.finish, SystemEx.close] at hm
    rcases hm with ⟨rfl, rfl, rfl, rfl⟩ | ⟨rfl, rfl, rfl, rfl⟩ <;> cases hwf <;> rfl
  · intro r hr
    match r, hr with
    | 0, _ => exact ⟨_, _, rfl, List.nodup_singleton "a", rfl, rfl, rfl⟩
    | 1, _ => exact ⟨_, _, rfl, List.nodup_singleton "a", rfl, rfl, rfl⟩

end AstroRun
