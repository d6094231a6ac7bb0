import Verif.Spec.Job
import Verif.Lemmas.WorkflowBook
import Verif.Spec.WorkflowEx
import Mathlib.Data.List.Perm.Subperm
import Mathlib.Data.List.Induction

/-! # C01, C03, C04, C05, C07, C08, C09: workflow runs -/

namespace AstroRun
open Spec

theorem job_unique {wf : Workflow} (hu : UniqueJobs wf) {k : Id} {j j' : Job} (h : (k, j) ∈ wf.jobs)
    (h' : (k, j') ∈ wf.jobs) : j = j' := by
  have h1 := AMap.get?_of_mem (m := wf.jobs) hu h
  have h2 := AMap.get?_of_mem (m := wf.jobs) hu h'
  rw [h1] at h2
  exact Option.some.inj h2

/-- A received message, read off the invariant. -/
theorem received_run {wf : Workflow} {m : WfM} (hi : WfInv wf m) {msg : WfMsg} (h : msg ∈ m.received) :
    ∃ job, IsRunOf m msg.sender msg.key ∧ (msg.key, job) ∈ wf.jobs ∧
      CompleteRun job (eventsOf msg.sender m.trace) msg.result := by
  obtain ⟨t, h1, h2, h3, h4⟩ := hi.recd msg h
  exact ⟨t.job, ⟨t, h1, h2⟩, h2 ▸ hi.job _ _ h1, h4⟩

/-- **C01** In every schedule: when a run of job `k` exists, each job `d` that `k` depends on has delivered a
result; and before the first notification of that run there was a complete run of `d`. -/
theorem C01_dependency_order (wf : Workflow) (hu : UniqueJobs wf) (acts : List WfAct) (m : WfM)
    (h : WfReach wf acts m) (i : Nat) (k d : Id) (hi : IsRunOf m i k) (hd : DependsOn wf k d) :
    ∃ msg ∈ m.received, msg.key = d ∧ IsRunOf m msg.sender d ∧
      ∀ pre e post, m.trace = pre ++ (some i, e) :: post →
        ∃ job, (d, job) ∈ wf.jobs ∧ CompleteRun job (eventsOf msg.sender pre) msg.result := by
  have inv := wfInv_reach h
  obtain ⟨t, ht, rfl⟩ := hi
  obtain ⟨j, hj, hdj⟩ := hd
  have : j = t.job := job_unique hu hj (inv.job i t ht)
  subst this
  obtain ⟨msg, hm, hk, hb⟩ := inv.order i t ht d hdj
  subst hk
  obtain ⟨job, hr, hmem, hc⟩ := received_run inv hm
  refine ⟨msg, hm, rfl, hr, fun pre e post heq => ⟨job, hmem, ?_⟩⟩
  rw [hb pre e post heq]
  exact hc

/-- What the state at a return looks like. -/
theorem returned_book {wf : Workflow} {acts : List WfAct} {m : WfM} (h : WfReach wf acts m)
    {r : WorkflowRunResult} (hr : m.pc = .returned r) (hs : r.state ≠ .skipped) :
    DoneBook wf m.view ∧ ResultOf wf m.view r ∧
      mainEvents m.trace = [.runWorkflow wf.id, .workflowState wf.id .inProgress,
        .workflowState wf.id r.state, .workflowCompleted r] := by
  have hb := (pcBook_reach h).2
  have hv : m.view.pc = .returned r := hr
  unfold PcBook at hb
  simp only [hv] at hb
  rcases hb with ⟨hb, _⟩ | hb
  · rw [hb] at hs; exact absurd rfl hs
  · exact hb

theorem returned_keys {wf : Workflow} {acts : List WfAct} {m : WfM} (h : WfReach wf acts m)
    {r : WorkflowRunResult} (hr : m.pc = .returned r) (hs : r.state ≠ .skipped) :
    r.jobs = m.results ∧ (AMap.keys m.results).Perm (wf.jobs.map Prod.fst) := by
  obtain ⟨hd, hres, _⟩ := returned_book h hr hs
  have inv := wfInv_reach h
  refine ⟨hres.2.2.2.2, ?_⟩
  have hsub : AMap.keys m.results ⊆ wf.jobs.map Prod.fst := by
    intro k hk
    obtain ⟨msg, hm, rfl⟩ := (inv.keys k).1 hk
    obtain ⟨job, _, hmem, _⟩ := received_run inv hm
    exact List.mem_map.2 ⟨_, hmem, rfl⟩
  refine (List.subperm_of_subset inv.nodup hsub).perm_of_length_le ?_
  have : m.results.length = wf.jobs.length := hd.len
  simp [AMap.keys, this]

/-- **C03** A returned workflow that was not skipped has exactly one result per configured job, and each is the
result of a complete run of that job. -/
theorem C03_result_completeness (wf : Workflow) (acts : List WfAct) (m : WfM)
    (h : WfReach wf acts m) (r : WorkflowRunResult) (hr : m.pc = .returned r) (hs : r.state ≠ .skipped) :
    (r.jobs.map Prod.fst).Nodup ∧
    (∀ k, k ∈ r.jobs.map Prod.fst ↔ k ∈ wf.jobs.map Prod.fst) ∧
    r.jobs.length = wf.jobs.length ∧
    ∀ k jr, (k, jr) ∈ r.jobs → ∃ i job, IsRunOf m i k ∧ (k, job) ∈ wf.jobs ∧
      CompleteRun job (eventsOf i m.trace) jr := by
  obtain ⟨h1, h2⟩ := returned_keys h hr hs
  have inv := wfInv_reach h
  rw [h1]
  refine ⟨inv.nodup, fun k => h2.mem_iff, by simpa [AMap.keys] using h2.length_eq, ?_⟩
  intro k jr hm
  obtain ⟨msg, hm', rfl, rfl⟩ := inv.vals k jr hm
  obtain ⟨job, h1, h2, h3⟩ := received_run inv hm'
  exact ⟨_, job, h1, h2, h3⟩

theorem defined_of_returned {wf : Workflow} (hu : UniqueJobs wf) {acts : List WfAct} {m : WfM} (h : WfReach wf acts m)
    {r : WorkflowRunResult} (hr : m.pc = .returned r) (hs : r.state ≠ .skipped) : DepsDefined wf := by
  obtain ⟨_, h2⟩ := returned_keys h hr hs
  have inv := wfInv_reach h
  intro k j hj d hd
  have hk : k ∈ AMap.keys m.results := h2.mem_iff.2 (List.mem_map.2 ⟨_, hj, rfl⟩)
  obtain ⟨msg, hm, rfl⟩ := (inv.keys k).1 hk
  obtain ⟨t, h1, hk', _⟩ := inv.recd msg hm
  have hmem := inv.job _ _ h1
  rw [hk'] at hmem
  have := job_unique hu hj hmem
  subst this
  obtain ⟨msg', hm', rfl, _⟩ := inv.order _ _ h1 d hd
  obtain ⟨job, _, h4, _⟩ := received_run inv hm'
  exact ⟨job, h4⟩

theorem foldl_next (rs : List WfMsg) (st : WorkflowState) :
    rs.foldl (fun st msg => nextWfState st msg.result) st =
      match lastBad (rs.map WfMsg.result) with
      | none => st
      | some r => r.state := by
  induction rs using List.reverseRecOn generalizing st with
  | nil => rfl
  | append_singleton rs x ih =>
    simp only [List.foldl_append, List.foldl_cons, List.foldl_nil, ih, List.map_append, List.map_cons, List.map_nil,
      lastBad, List.filter_append]
    unfold nextWfState
    by_cases hf : x.result.state = .failed
    · simp [hf]
    · by_cases hc : x.result.state = .cancelled
      · simp [hc]
      · simp [hf, hc]

theorem stateAfter_eq {wf : Workflow} (hd : DepsDefined wf) (rs : List WfMsg) :
    stateAfter wf rs = match lastBad (rs.map WfMsg.result) with
      | none => .inProgress
      | some r => r.state := by
  have : initState wf wf.jobs = .inProgress := by
    unfold initState
    rw [if_pos]
    rintro ⟨k, j⟩ he d hdd
    obtain ⟨j', hj'⟩ := hd k j he d hdd
    exact ⟨_, hj', rfl⟩
  rw [stateAfter, foldl_next, this]

/-- **C04** The state of a returned, non-skipped workflow: that of the last Failed or Cancelled result it
received, or Succeeded if there was none. -/
theorem C04_workflow_outcome (wf : Workflow) (hu : UniqueJobs wf) (acts : List WfAct) (m : WfM)
    (h : WfReach wf acts m) (r : WorkflowRunResult) (hr : m.pc = .returned r) (hs : r.state ≠ .skipped) :
    r.state = (match lastBad (m.received.map WfMsg.result) with
      | none => .succeeded
      | some bad => bad.state) ∧
    (r.state = .succeeded ↔ ∀ msg ∈ m.received, msg.result.state ≠ .failed ∧ msg.result.state ≠ .cancelled) ∧
    (r.state = .succeeded ∨ r.state = .failed ∨ r.state = .cancelled) := by
  obtain ⟨hd, hres, _⟩ := returned_book h hr hs
  have hdef := defined_of_returned hu h hr hs
  have hst : r.state = closeState (stateAfter wf m.received) := by
    rw [hres.2.1]; exact hd.state
  rw [stateAfter_eq hdef] at hst
  cases hb : lastBad (m.received.map WfMsg.result) with
  | none =>
    simp only [hb, closeState, if_true] at hst
    refine ⟨hst, ⟨fun _ msg hm => ?_, fun _ => hst⟩, .inl hst⟩
    simp only [lastBad, List.getLast?_eq_none_iff, List.filter_eq_nil_iff, List.mem_map, decide_eq_true_eq,
      forall_exists_index, and_imp, forall_apply_eq_imp_iff₂] at hb
    have := hb msg hm
    exact ⟨fun h => this (.inl h), fun h => this (.inr h)⟩
  | some bad =>
    have hmem := List.mem_of_getLast? hb
    simp only [List.mem_filter, List.mem_map, decide_eq_true_eq] at hmem
    obtain ⟨⟨msg, hm, rfl⟩, hbad⟩ := hmem
    have hne : msg.result.state ≠ .inProgress := by rcases hbad with h | h <;> simp [h]
    simp only [hb, closeState, hne, if_false] at hst
    refine ⟨hst, ⟨fun hsucc => ?_, fun hall => ?_⟩, ?_⟩
    · rw [hst] at hsucc
      rcases hbad with h | h <;> simp [h] at hsucc
    · rcases hbad with h | h
      · exact absurd h (hall msg hm).1
      · exact absurd h (hall msg hm).2
    · rw [hst]; exact .inr hbad

/-- **C05** Whatever the results of its dependencies: at every point at which the workflow waits for results,
a job all of whose dependencies have delivered one has been started; and in a returned, non-skipped workflow
every configured job has had a complete run. -/
theorem C05_dependents_run_anyway (wf : Workflow) (hu : UniqueJobs wf) (acts : List WfAct) (m : WfM)
    (h : WfReach wf acts m) :
    (m.pc = .loop → ∀ k job, (k, job) ∈ wf.jobs →
      (∀ d ∈ job.dependsOn, ∃ msg ∈ m.received, msg.key = d) → ∃ i, IsRunOf m i k) ∧
    (∀ r, m.pc = .returned r → r.state ≠ .skipped → ∀ k job, (k, job) ∈ wf.jobs →
      ∃ i jr, IsRunOf m i k ∧ CompleteRun job (eventsOf i m.trace) jr) := by
  have inv := wfInv_reach h
  have hrun : ∀ e, e ∈ m.view.runs → ∃ i, IsRunOf m i e.1 := by
    intro e he
    obtain ⟨t, ht, rfl⟩ := List.mem_map.1 he
    obtain ⟨i, hi⟩ := List.mem_iff_getElem?.1 ht
    exact ⟨i, t, hi, rfl⟩
  constructor
  · intro hpc k job hj hd
    have hb := (pcBook_reach h).2
    have hv : m.view.pc = .loop := hpc
    unfold PcBook at hb; simp only [hv] at hb
    obtain ⟨⟨⟨extra, hr1, _⟩, hw, _⟩, _, _, hready, _⟩ := hb
    by_cases hroot : isRoot (k, job) = true
    · exact hrun (k, job) (by rw [hr1]; exact List.mem_append_left _ (List.mem_filter.2 ⟨hj, hroot⟩))
    · by_cases hrec : ∃ msg ∈ m.received, msg.key = k
      · obtain ⟨msg, hm, rfl⟩ := hrec
        obtain ⟨_, hr, _⟩ := received_run inv hm
        exact ⟨_, hr⟩
      · refine hrun (k, job) (hready _ ?_ ?_)
        · rw [hw]
          refine List.mem_filter.2 ⟨hj, ?_⟩
          simp only [Bool.and_eq_true, Bool.not_eq_true', List.any_eq_false, beq_iff_eq]
          exact ⟨by simpa using hroot, fun msg hm hk => hrec ⟨msg, hm, hk⟩⟩
        · intro d hdd
          exact (inv.keys d).2 (hd d hdd)
  · intro r hr hs k job hj
    obtain ⟨_, h2⟩ := returned_keys h hr hs
    have hk : k ∈ AMap.keys m.results := h2.mem_iff.2 (List.mem_map.2 ⟨_, hj, rfl⟩)
    obtain ⟨msg, hm, rfl⟩ := (inv.keys k).1 hk
    obtain ⟨job', h1, h3, h4⟩ := received_run inv hm
    have := job_unique hu hj h3
    subst this
    exact ⟨_, _, h1, h4⟩

/-- **C07** In every schedule of a workflow that is not skipped: nothing comes before `on_run_workflow` and the
InProgress state; the workflow's own notifications are a prefix of these four, in this order, and all four
when it has returned. -/
theorem C07_workflow_bracket (wf : Workflow) (acts : List WfAct) (m : WfM) (h : WfReach wf acts m) :
    (∀ r, m.pc = .returned r → r.state ≠ .skipped →
      mainEvents m.trace = [.runWorkflow wf.id, .workflowState wf.id .inProgress,
        .workflowState wf.id r.state, .workflowCompleted r] ∧
      r.id = wf.id ∧ Over r.state) ∧
    (m.trace = [] ∨ m.trace = [(none, .workflowState wf.id .skipped)] ∨
      ∃ rest, m.trace = (none, .runWorkflow wf.id) :: (none, .workflowState wf.id .inProgress) :: rest) ∧
    ((∀ r, m.pc ≠ .returned r) → ∃ st, mainEvents m.trace <+: [.runWorkflow wf.id,
      .workflowState wf.id .inProgress, .workflowState wf.id st]) := by
  have hb := (pcBook_reach h).2
  unfold PcBook at hb
  refine ⟨fun r hr hs => ?_, ?_, ?_⟩
  · obtain ⟨h1, h2, h3⟩ := returned_book h hr hs
    refine ⟨h3, h2.1, ?_⟩
    have hst : r.state = closeState (stateAfter wf m.received) := by
      rw [h2.2.1]; exact h1.state
    rw [stateAfter, foldl_next] at hst
    rw [hst]
    cases hbad : lastBad (m.received.map WfMsg.result) with
    | none => simp only [initState]; split <;> simp [closeState, Over]
    | some bad =>
      have hmem := List.mem_of_getLast? hbad
      simp only [List.mem_filter, decide_eq_true_eq] at hmem
      rcases hmem.2 with hx | hx <;> simp [hx, closeState, Over]
  · rcases hpc : m.view.pc with _ | rest | _ | t | r | r <;> simp only [hpc] at hb
    · left
      have : m.view.trace = (WfM.initial wf).view.trace := by rw [hb]
      exact this
    · obtain ⟨_, _, _, _, _, _, _, h7, _⟩ := hb
      exact .inr (.inr h7)
    · exact .inr (.inr hb.1.head)
    · exact .inr (.inr hb.1.head)
    · exact .inr (.inr hb.1.head)
    · rcases hb with ⟨_, hb, _⟩ | hb
      · exact .inr (.inl hb)
      · exact .inr (.inr hb.1.head)
  · intro hnr
    rcases hpc : m.view.pc with _ | rest | _ | t | r | r <;> simp only [hpc] at hb
    · refine ⟨.inProgress, ?_⟩
      have : m.trace = [] := by
        have : m.view.trace = (WfM.initial wf).view.trace := by rw [hb]
        exact this
      simp [this, mainEvents]
    · obtain ⟨_, _, _, _, _, _, _, _, h8⟩ := hb
      have : mainEvents m.trace = _ := h8
      exact ⟨.inProgress, by rw [this]; exact ⟨[_], rfl⟩⟩
    · have : mainEvents m.trace = _ := hb.2.2.2.2
      exact ⟨.inProgress, by rw [this]; exact ⟨[_], rfl⟩⟩
    · have : mainEvents m.trace = _ := hb.2
      exact ⟨.inProgress, by rw [this]; exact ⟨[_], rfl⟩⟩
    · have : mainEvents m.trace = _ := hb.2.2
      exact ⟨r.state, by rw [this]; exact ⟨[], rfl⟩⟩
    · exact absurd hpc (hnr r)

/-- **C08** If the condition does not match: the run is over at once, whatever else happens, with one
notification, no job run and an empty Skipped result; and it is skipped only then. -/
theorem C08_skipped_workflow (wf : Workflow) (b : Bool) (now : Time) (acts : List WfAct) (m : WfM)
    (h : WfReach wf (.check b now :: acts) m) :
    ((∃ c, wf.on = some c) ∧ b = false →
      acts = [] ∧
      m.pc = .returned { id := wf.id, state := .skipped, startedAt := none, completedAt := none, jobs := [] } ∧
      m.trace = [(none, .workflowState wf.id .skipped)] ∧ m.tasks = []) ∧
    (wf.on = none ∨ b = true → ∀ r, m.pc = .returned r →
      r.state ≠ .skipped ∧ r.startedAt = some now ∧ r.completedAt.isSome) := by
  unfold WfReach at h
  constructor
  · rintro ⟨⟨c, hc⟩, rfl⟩
    simp only [runs, WfM.step, WfM.initial, hc, shouldSkip, Bool.not_false, if_true, List.nil_append] at h
    cases acts with
    | nil => simp only [runs, Option.some.injEq] at h; subst h; exact ⟨rfl, rfl, rfl, rfl⟩
    | cons a acts =>
      exfalso
      cases a <;> simp [runs, WfM.step] at h
  · intro hm r hr
    have hskip : shouldSkip wf.on b = false := by
      rcases hm with h | h
      · simp [h, shouldSkip]
      · cases hon : wf.on <;> simp [shouldSkip, h]
    have key : ∀ (acts : List WfAct) (m0 m1 : WfM), WfInv wf m0 → PcBook wf m0.view →
        (m0.pc ≠ .init ∧ ∀ r, m0.pc = .returned r → r ≠ skippedWfResult wf.id) → m0.startedAt = now →
        runs WfM.step m0 acts = some m1 →
        WfInv wf m1 ∧ PcBook wf m1.view ∧ (m1.pc ≠ .init ∧ ∀ r, m1.pc = .returned r → r ≠ skippedWfResult wf.id) ∧
          m1.startedAt = now := by
      intro acts
      induction acts with
      | nil => intro m0 m1 h1 h2 h3 h4 h5; simp [runs] at h5; subst h5; exact ⟨h1, h2, h3, h4⟩
      | cons a acts ih =>
        intro m0 m1 h1 h2 h3 h4 h5
        simp only [runs] at h5
        split at h5
        · rename_i m2 hs
          refine ih m2 m1 (h1.step hs) (h2.step h1 hs) ?_ ?_ h5
          · have hb := h2.step h1 hs
            cases a <;> simp only [WfM.step] at hs
            case check => split at hs <;> simp_all
            case spawn => split at hs <;> simp at hs <;> subst hs <;> simp
            case recv =>
              split at hs
              · rename_i hpc _
                cases hs
                unfold WfM.handle
                simp only
                split
                · simp
                · rw [rescan_eq]; simp [WfM.book, hpc]
              · simp at hs
            case announce => split at hs <;> simp at hs <;> subst hs <;> simp
            case complete =>
              split at hs
              · rename_i r hpc
                cases hs
                refine ⟨by simp, ?_⟩
                rintro r' hr' rfl
                cases hr'
                have hv : m0.view.pc = .completing (skippedWfResult wf.id) := hpc
                unfold PcBook at h2; simp only [hv] at h2
                have := h2.2.1.2.2.1
                simp [skippedWfResult] at this
              · simp at hs
            case begin => split at hs <;> simp at hs <;> subst hs <;> exact h3
            case emit =>
              split at hs
              · simp at hs; subst hs; exact h3
              · split at hs <;> (simp at hs; subst hs; exact h3)
              · simp at hs
            case send =>
              split at hs
              · split at hs
                · simp at hs; subst hs; exact h3
                · split at hs
                  · simp at hs; subst hs; exact h3
                  · simp at hs
              · simp at hs
          · cases a <;> simp only [WfM.step] at hs
            case check => split at hs <;> simp_all
            case spawn =>
              split at hs <;> simp at hs <;> subst hs
              · exact h4
              · simp only [WfM.setupJob]; split <;> exact h4
            case recv =>
              split at hs
              · cases hs
                unfold WfM.handle
                simp only
                split
                · exact h4
                · rw [rescan_eq]; exact h4
              · simp at hs
            case announce => split at hs <;> simp at hs <;> subst hs <;> exact h4
            case complete => split at hs <;> simp at hs <;> subst hs <;> exact h4
            case begin => split at hs <;> simp at hs <;> subst hs <;> exact h4
            case emit =>
              split at hs
              · simp at hs; subst hs; exact h4
              · split at hs <;> (simp at hs; subst hs; exact h4)
              · simp at hs
            case send =>
              split at hs
              · split at hs
                · simp at hs; subst hs; exact h4
                · split at hs
                  · simp at hs; subst hs; exact h4
                  · simp at hs
              · simp at hs
        · simp at h5
    simp only [runs, WfM.step, WfM.initial, hskip, Bool.false_eq_true, if_false] at h
    have hfirst : WfReach wf [.check b now] { WfM.initial wf with
        pc := .setup wf.jobs, startedAt := now, state := .inProgress
        trace := [(none, .runWorkflow wf.id), (none, .workflowState wf.id .inProgress)] } := by
      simp [WfReach, runs, WfM.step, WfM.initial, hskip]
    obtain ⟨i1, i2⟩ := pcBook_reach hfirst
    obtain ⟨_, hb, hne, hnow⟩ := key acts _ m i1 i2 (by simp) rfl h
    have hv : m.view.pc = .returned r := hr
    unfold PcBook at hb; simp only [hv] at hb
    rcases hb with ⟨hb, _⟩ | ⟨hb, hres, _⟩
    · exact absurd hb (hne.2 r hr)
    · have hst : m.view.startedAt = now := hnow
      refine ⟨?_, by rw [hres.2.2.1, hst], hres.2.2.2.1⟩
      rw [hres.2.1, hb.state, stateAfter, foldl_next]
      cases hbad : lastBad (m.view.received.map WfMsg.result) with
      | none => simp only [initState]; split <;> simp [closeState]
      | some bad =>
        have hmem := List.mem_of_getLast? hbad
        simp only [List.mem_filter, decide_eq_true_eq] at hmem
        rcases hmem.2 with hx | hx <;> simp [hx, closeState]

/-- **C09** When the workflow first waits for a result, every job without dependencies has been started; until
then the workflow never waits; and a started job can begin in every state, whatever other jobs do. -/
theorem C09_independent_jobs_start_at_once (wf : Workflow) (acts : List WfAct) (m : WfM)
    (h : WfReach wf acts m) :
    (m.pc = .loop ∨ m.received ≠ [] → ∀ k job, (k, job) ∈ wf.jobs → job.dependsOn = [] → ∃ i, IsRunOf m i k) ∧
    (∀ rest, m.pc = .setup rest → ∃ m', m.step .spawn = some m') ∧
    (∀ i t, m.tasks[i]? = some t → t.pc = .spawned → ∀ env, ∃ m', m.step (.begin i env) = some m') := by
  refine ⟨fun hl k job hj hroot => ?_, fun rest hpc => ?_, fun i t ht hp env => ?_⟩
  · have hb := (pcBook_reach h).2
    have hloop : LoopBook wf m.view := by
      unfold PcBook at hb
      rcases hpc : m.view.pc with _ | rest | _ | t | r | r <;> simp only [hpc] at hb
      · rcases hl with hl | hl
        · have : m.view.pc = .loop := hl
          rw [hpc] at this; simp at this
        · have : m.view.received = [] := by rw [hb]; rfl
          exact absurd this hl
      · rcases hl with hl | hl
        · have : m.view.pc = .loop := hl
          rw [hpc] at this; simp at this
        · obtain ⟨_, _, _, _, _, h5, _⟩ := hb
          exact absurd h5 hl
      · exact hb.1
      · exact hb.1.toLoopBook
      · exact hb.1.toLoopBook
      · rcases hb with hb | hb
        · rcases hl with hl | hl
          · have : m.view.pc = .loop := hl
            rw [hpc] at this; simp at this
          · exact absurd hb.2.2.2 hl
        · exact hb.1.toLoopBook
    obtain ⟨extra, hr, _⟩ := hloop.roots
    have : (k, job) ∈ m.view.runs := by
      rw [hr]
      exact List.mem_append_left _ (List.mem_filter.2 ⟨hj, by simp [isRoot, hroot]⟩)
    obtain ⟨t, ht, hk⟩ := List.mem_map.1 this
    cases hk
    obtain ⟨i, hi⟩ := List.mem_iff_getElem?.1 ht
    exact ⟨i, t, hi, rfl⟩
  · cases rest with
    | nil => exact ⟨_, by simp only [WfM.step, hpc]; rfl⟩
    | cons e rest => exact ⟨_, by simp only [WfM.step, hpc]; rfl⟩
  · obtain ⟨k, job, pc⟩ := t
    simp only at hp
    subst hp
    exact ⟨_, by simp only [WfM.step, ht]; rfl⟩

/-! ## Witnesses

`chain` (build; test → build; deploy → test, build) run to its return with `build` failing meets the hypotheses
of C01, C03, C04, C05, C07 and C09; `guarded` those of C08. -/

open WorkflowEx in
example : UniqueJobs chain ∧ WfReach chain chainActs (after chain chainActs) ∧
    IsRunOf (after chain chainActs) 2 "deploy" ∧ DependsOn chain "deploy" "test" ∧
    (∃ pre e post, (after chain chainActs).trace = pre ++ (some 2, e) :: post) ∧
    (∃ r, (after chain chainActs).pc = .returned r ∧ r.state = .failed ∧
      lastBad ((after chain chainActs).received.map WfMsg.result) ≠ none ∧
      r.jobs.map (fun e => (e.1, e.2.state)) = [("deploy", .succeeded), ("test", .succeeded), ("build", .failed)]) := by
  refine ⟨by unfold UniqueJobs; decide, by unfold WfReach; rfl, ⟨_, rfl, by decide⟩,
    ⟨job "deploy" ["test", "build"], by decide, by decide⟩, ?_, ⟨_, rfl, by decide, by decide, by decide⟩⟩
  exact List.append_of_mem (a := (some 2, Event.runJob ⟨"w", "deploy"⟩)) (by decide) |>.elim
    fun s h => ⟨s, _, h⟩

open WorkflowEx in
/-- The point at which the workflow first waits, and the one at which it waits with `build` failed. -/
example : (after chain (chainActs.take 5)).pc = .loop ∧ (after chain (chainActs.take 19)).pc = .loop ∧
    (after chain (chainActs.take 19)).received.map (fun m => (m.key, m.result.state)) = [("build", .failed)] ∧
    WfReach chain (chainActs.take 5) (after chain (chainActs.take 5)) ∧
    WfReach chain (chainActs.take 19) (after chain (chainActs.take 19)) := by
  refine ⟨by decide, by decide, by decide, by unfold WfReach; rfl, by unfold WfReach; rfl⟩

open WorkflowEx in
/-- Skipped, and not skipped. -/
example : WfReach guarded [.check false 4] (after guarded [.check false 4]) ∧ guarded.on ≠ none ∧
    WfReach guarded (.check true 1 :: chainActs.tail) (after guarded (.check true 1 :: chainActs.tail)) ∧
    (∃ r, (after guarded (.check true 1 :: chainActs.tail)).pc = .returned r ∧ r.startedAt = some 1) := by
  refine ⟨by unfold WfReach; rfl, by decide, by unfold WfReach; rfl, ⟨_, rfl, by decide⟩⟩

end AstroRun
