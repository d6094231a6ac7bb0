import Mathlib.Data.List.Induction
import Verif.Lemmas.RemoteEngineSignals
import Verif.Lemmas.Lifecycle
import Verif.Lemmas.SystemAlone

/-! # One call per step -/

namespace AstroRun
open Spec

namespace OnlyCallLem

/-- What has completed is among the results. -/
def Recorded (t : SysTask) : Prop :=
  (∀ r, Event.stepCompleted r ∈ t.evs ++ t.pc.pend → r ∈ t.results) ∧ (t.pc = .init → t.evs = []) ∧
    ∀ es k, t.pc = .emitting es k → k.afterEmit = true

theorem stepDone_recorded {t : SysTask} {r : StepRunResult} (hp : t.pc.pend = []) (h : Recorded t) : Recorded (t.stepDone r) := by
  obtain ⟨h1, h2, -⟩ := h
  rw [hp, List.append_nil] at h1
  refine ⟨fun x hx => ?_, fun e => by simp [SysTask.stepDone, SysTask.emitThen] at e, by simp [SysTask.stepDone, SysTask.emitThen, SysPc.afterEmit]⟩
  simp only [SysTask.stepDone, SysTask.emitThen, SysPc.pend, List.mem_append, List.mem_cons, List.not_mem_nil, or_false, reduceCtorEq,
    Event.stepCompleted.injEq, false_or] at hx ⊢
  rcases hx with hx | rfl
  · exact .inl (h1 x hx)
  · exact .inr rfl

theorem recorded_step {now : Time} {t t' : SysTask} {a : TaskAct} (h : Recorded t) (hs : t.step now a = some t') : Recorded t' := by
  obtain ⟨h1, h2, h3⟩ := h
  cases a <;> simp only [SysTask.step] at hs
  all_goals (repeat' split at hs)
  all_goals first
    | contradiction
    | (cases hs
       refine stepDone_recorded (by simp [*, SysPc.pend]) ⟨h1, h2, h3⟩)
    | (cases hs
       refine ⟨fun x hx => ?_, fun e => ?_, fun es k e => ?_⟩
       · have := h1 x
         simp_all [SysTask.emitThen, SysPc.pend]
       · first
         | exact h2 e
         | simp_all [SysTask.emitThen]
       · first
         | exact h3 es k e
         | (simp only [SysTask.emitThen, SysPc.emitting.injEq] at e; obtain ⟨-, rfl⟩ := e; simp [SysPc.afterEmit]; done)
         | simp_all [SysTask.emitThen])

theorem recorded_move {g g' : SigMgr} {ρ ρ' : SysRun} {now : Time} {i : Nat} {t : SysTask} {a : TaskAct}
    (h : Recorded t) (hs : Sys.taskStep g ρ now i t a = some (g', ρ')) : ∃ t', ρ'.tasks = ρ.tasks.set i t' ∧ Recorded t' := by
  obtain ⟨t', e1, _, _, _, _, _, _, _, _, hc⟩ := taskStep_frame hs
  refine ⟨t', e1, ?_⟩
  obtain ⟨h1, h2, h3⟩ := h
  rcases hc with ⟨e, es, k, hpc, rfl, _⟩ | ⟨k, hpc, rfl, _⟩ | ⟨s, t0, ref, hpc, rfl, _⟩ | ⟨s, t0, hpc, rfl, _⟩ |
    ⟨s, t0, d, ref, sg, hpc, rfl, _⟩ | ⟨r, hpc, rfl, _⟩ | ⟨hs, _⟩
  · refine ⟨fun x hx => h1 x (by rw [hpc]; simpa [SysPc.pend] using hx), by simp, fun es' k' e' => ?_⟩
    cases e'
    exact h3 _ _ hpc
  · refine ⟨fun x hx => h1 x (by rw [hpc]; simpa [SysPc.pend] using hx), fun e' => ?_, fun es' k' e' => ?_⟩
    · have := h3 _ _ hpc
      rw [show k = .init from e'] at this; cases this
    · have := h3 _ _ hpc
      rw [show k = .emitting es' k' from e'] at this; cases this
  · exact ⟨fun x hx => h1 x (by rw [hpc]; simpa [SysPc.pend] using hx), by simp, by simp⟩
  · exact ⟨fun x hx => h1 x (by rw [hpc]; simpa [SysPc.pend] using hx), by simp, by simp⟩
  · exact ⟨fun x hx => h1 x (by rw [hpc]; simpa [SysPc.pend] using hx), by simp, by simp⟩
  · exact ⟨fun x hx => h1 x (by rw [hpc]; simpa [SysPc.pend] using hx), by simp, by simp⟩
  · exact recorded_step ⟨h1, h2, h3⟩ hs

theorem recorded_reach {acts : List SysAct} {M : Sys} (h : SysReach acts M) {r : Nat} {ρ : SysRun} (hr : M.runs[r]? = some ρ) {t : SysTask}
    (ht : t ∈ ρ.tasks) : Recorded t := by
  refine run_always (P := fun ρ => ∀ t ∈ ρ.tasks, Recorded t) (by simp) ?_ ?_ h r ρ hr t ht
  · intro now ρ a ρ' hP hm t ht
    obtain ⟨es, hes⟩ := main_fresh hm
    rw [hes] at ht
    rcases List.mem_append.1 ht with h | h
    · exact hP t h
    · obtain ⟨e, _, rfl⟩ := List.mem_map.1 h
      exact ⟨by simp [SysPc.pend], fun _ => rfl, by simp⟩
  · intro g g' now ρ ρ' i t a hP ht hm u hu
    obtain ⟨t', h1, h2⟩ := recorded_move (hP t (List.mem_of_getElem? ht)) hm
    rw [h1] at hu
    rcases List.mem_or_eq_of_mem_set hu with hu | rfl
    · exact hP u hu
    · exact h2

theorem stepReport_mem {evs : List Event} {p : StepId × WorkflowState} (h : (stepReports evs).getLast? = some p) : Event.stepState p.1 p.2 ∈ evs := by
  have := List.mem_of_getLast? h
  simp only [stepReports, List.mem_filterMap] at this
  obtain ⟨e, h1, h2⟩ := this
  split at h2
  · cases h2; exact h1
  · cases h2

/-- Steps that are reported on have been announced. -/
theorem ordered_step {j : JobId} {evs : List Event} (h : WellOrdered j evs) {id : StepId} {s : WorkflowState} (hs : s ≠ .skipped)
    (he : Event.stepState id s ∈ evs) : ∃ st, Event.runStep st ∈ evs ∧ st.id = id := by
  induction hn : evs.length using Nat.strongRecOn generalizing evs s with
  | _ n ih =>
    obtain ⟨pre, post, rfl⟩ := List.append_of_mem he
    have hpre : WellOrdered j pre := fun a e b hab => h a e (b ++ .stepState id s :: post) (by simp [hab])
    obtain ⟨_, h2⟩ := h pre _ post rfl
    have again : ∀ s', s' ≠ .skipped → (stepReports pre).getLast? = some (id, s') →
        ∃ st, Event.runStep st ∈ pre ++ .stepState id s :: post ∧ st.id = id := by
      intro s' hs' hl
      obtain ⟨st, q1, q2⟩ := ih pre.length (by subst hn; simp) hpre hs' (stepReport_mem hl) rfl
      exact ⟨st, List.mem_append_left _ q1, q2⟩
    rcases h2 with ⟨h2, _⟩ | ⟨_, _, st, h2, h3⟩ | ⟨_, h2⟩ | ⟨_, h2⟩ | ⟨_, _, h2⟩
    · exact absurd h2 hs
    · exact ⟨st, List.mem_append_left _ (List.mem_of_getLast? h2), h3⟩
    · exact again _ (by simp) h2
    · exact again _ (by simp) h2
    · exact again _ (by simp) h2

/-- Jobs in progress have been announced. -/
theorem ordered_job {j : JobId} {pre evs : List Event} (h : WellOrdered j evs) (hp : ∀ e ∈ pre, e ∈ evs)
    (hj : jobReports pre = [(j, .inProgress)]) : Event.runJob j ∈ evs := by
  have : (j, WorkflowState.inProgress) ∈ jobReports pre := by rw [hj]; simp
  simp only [jobReports, List.mem_filterMap] at this
  obtain ⟨e, h1, h2⟩ := this
  split at h2
  · cases h2
    obtain ⟨a, b, hab⟩ := List.append_of_mem (hp _ h1)
    obtain ⟨_, h3⟩ := h a _ b hab
    rcases h3 with ⟨_, h3⟩ | ⟨h3, _⟩ | ⟨_, _, h3, _⟩
    · cases h3
    · rw [hab, h3]; simp
    · cases h3
  · cases h2

theorem ordered_completed {j : JobId} {evs : List Event} (h : WellOrdered j evs) {r : StepRunResult} (he : Event.stepCompleted r ∈ evs) :
    Event.runJob j ∈ evs ∧ ∃ st, Event.runStep st ∈ evs ∧ st.id = r.id := by
  obtain ⟨pre, post, hx⟩ := List.append_of_mem he
  obtain ⟨h1, h2, h3, h4⟩ := h pre _ post hx
  have hsub : ∀ e ∈ pre, e ∈ evs := fun e he => by rw [hx]; exact List.mem_append_left _ he
  exact ⟨ordered_job h hsub h1, ordered_step h h4 (hsub _ (List.mem_of_getLast? h2))⟩

theorem ordered_run {j : JobId} {evs : List Event} (h : WellOrdered j evs) {c : Command} (he : Event.runnerRun c ∈ evs) :
    Event.runJob j ∈ evs ∧ ∃ st, Event.runStep st ∈ evs ∧ st.id = c.id := by
  obtain ⟨pre, post, hx⟩ := List.append_of_mem he
  obtain ⟨h1, h2⟩ := h pre _ post hx
  have hsub : ∀ e ∈ pre, e ∈ evs := fun e he => by rw [hx]; exact List.mem_append_left _ he
  exact ⟨ordered_job h hsub h1, ordered_step h (by simp) (hsub _ (List.mem_of_getLast? h2))⟩

/-- Commands handed over were given to the runner. -/
theorem handedOver_mem {evs : List Event} {c : Command} {ls : List Log} (h : (c, ls) ∈ handedOver evs) : Event.runnerRun c ∈ evs := by
  induction evs using List.reverseRecOn generalizing ls with
  | nil => simp [handedOver] at h
  | append_singleton evs e ih =>
    rw [handedOver_append] at h
    rw [List.mem_append]
    cases e <;> simp only [noteHandedOver] at h
    case runnerRun c' =>
      rcases List.mem_append.1 h with h | h
      · exact .inl (ih h)
      · simp only [List.mem_singleton, Prod.mk.injEq] at h
        rw [h.1]; simp
    case log id l =>
      obtain ⟨k, hk⟩ := List.mem_iff_getElem?.1 h
      rw [List.getElem?_modify] at hk
      obtain ⟨y, h1, h2⟩ := Option.map_eq_some_iff.1 hk
      refine .inl (ih (ls := y.2) ?_)
      have : y.1 = c := by split at h2 <;> simp_all
      rw [← this]
      exact List.mem_of_getElem? h1
    all_goals exact .inl (ih h)

/-- The calls of a job task are for commands it gave to the runner. -/
theorem call_handed {acts : List RemoteEngineAct} {E : RemoteEngine} (h : RemoteEngineReach acts E) {r i n : Nat} {x : RemoteExec}
    (hx : callAt E r i n = some x) : ∃ t, taskAt E.sys r i = some t ∧ Event.runnerRun x.command ∈ t.evs := by
  have hx' := callAt_iff.1 hx
  cases hT : taskAt E.sys r i with
  | none => rw [rpair_none h hT] at hx'; simp at hx'
  | some t =>
    refine ⟨t, rfl, ?_⟩
    have hp := rpair h hT
    have hv : ((E.calls r i).map callView)[n]? = some (some (x.command, x.net)) := by rw [List.getElem?_map, hx']; rfl
    have hall : ∃ ls, (x.command, ls) ∈ handedOver (t.evs ++ t.pc.pend) := by
      have ended : ∀ {H D R}, REnded H D R → D[n]? = some (some (x.command, x.net)) → ∃ ls, (x.command, ls) ∈ H := by
        intro H D R he hd
        obtain ⟨st, _, _, a1, _, a3, _⟩ := he.each n _ _ hd
        exact ⟨_, by rw [a3]; exact List.mem_of_getElem? a1⟩
      cases hst : stepOf t.pc with
      | none => exact ended (hp.idle hst) hv
      | some st =>
        by_cases hrd : t.pc.reading = true
        · obtain ⟨st', D, o, H, _, a2, a3, _, a5, a6⟩ := hp.link hrd
          rw [a2] at hv
          rw [a5]
          rcases snoc_get hv with hv | ⟨_, rfl⟩
          · obtain ⟨ls, q⟩ := ended a6 hv
            exact ⟨ls, List.mem_append_left _ q⟩
          · exact ⟨t.stream.logs.take t.stream.index, List.mem_append_right _ (by rw [← show x.command = st'.toCommand from a3.1]; simp)⟩
        · obtain ⟨s0, t0, ref, hpc⟩ : ∃ s t0 ref, t.pc = .calling s t0 ref := by
            cases hq : t.pc
            all_goals simp only [hq, stepOf, reduceCtorEq] at hst
            case calling s0 t0 ref => exact ⟨_, _, _, rfl⟩
            all_goals exfalso; apply hrd; simp only [hq, SysPc.reading]
            split at hst
            all_goals simp_all
          obtain ⟨_, _, H, a5, a6⟩ := hp.calling _ _ _ hpc
          rw [a5]
          obtain ⟨ls, q⟩ := ended a6 hv
          exact ⟨ls, List.mem_append_left _ q⟩
    obtain ⟨ls, hl⟩ := hall
    have := handedOver_mem hl
    rcases List.mem_append.1 this with h | h
    · exact h
    · exfalso
      cases hq : t.pc <;> simp only [hq, SysPc.pend, List.not_mem_nil] at h
      rename_i es k
      obtain ⟨f1, f2⟩ := hp.form.form es k hq
      rcases List.mem_append.1 h with h | h
      · exact f2 _ h
      · cases k <;> simp [SysPc.afterEmit, SysPc.pend] at f1 h

/-- A step whose id no other step of its job had before has one call only. -/
theorem only_call {acts : List RemoteEngineAct} {E : RemoteEngine} (h : RemoteEngineReach acts E) {sa : List SysAct} (hsa : SysReach sa E.sys)
    (hk : HooksKeepJobs sa) {r i L : Nat} {t : SysTask} (hT : taskAt E.sys r i = some t) (hno : NoOther E.sys t.job.id r i) {s : Step}
    (hb : BusyRemotely E r i L s) (hids : ∀ sr ∈ t.results, sr.id ≠ s.id) : OnlyCallFor E r i L s.id := by
  obtain ⟨t1, h1, h2, h3, h4⟩ := hb
  rw [hT] at h1; cases h1
  have hp := rpair h hT
  obtain ⟨st, D, o, H, a1, a2, a3, _, a5, a6⟩ := hp.link h2
  rw [h3] at a1; cases a1
  have hLD : L = D.length := by
    have := congrArg List.length a2
    simp only [List.length_map, List.length_append, List.length_singleton] at this
    omega
  -- who announced a step with this id has announced this job
  have own : ∀ r' i' t', taskAt E.sys r' i' = some t' → (∃ st, Event.runStep st ∈ t'.evs ∧ st.id = s.id) → s.id.jobId = t'.job.id := by
    intro r' i' t' ht' ⟨st, q1, q2⟩
    obtain ⟨ρ', e1, e2⟩ := taskAt_some ht'
    rw [← q2]
    exact kept_reach hk hsa r' ρ' e1 i' t' e2 st (List.mem_append_left _ q1)
  have hord : ∀ r' i' t', taskAt E.sys r' i' = some t' → WellOrdered t'.job.id t'.evs := by
    intro r' i' t' ht'
    obtain ⟨ρ', e1, e2⟩ := taskAt_some ht'
    exact ((runLife_reach hsa e1).tasks t' (List.mem_of_getElem? e2)).ordered
  have hmine : s.id.jobId = t.job.id := by
    have hm : Event.runnerRun s.toCommand ∈ t.evs ++ t.pc.pend := handedOver_mem (ls := t.stream.logs.take t.stream.index) (by rw [a5]; simp)
    have hm' : Event.runnerRun s.toCommand ∈ t.evs := by
      rcases List.mem_append.1 hm with hm | hm
      · exact hm
      · exfalso
        cases hq : t.pc <;> simp only [hq, SysPc.pend, List.not_mem_nil] at hm
        rename_i es k
        obtain ⟨f1, f2⟩ := hp.form.form es k hq
        rcases List.mem_append.1 hm with hm | hm
        · exact f2 _ hm
        · cases k <;> simp [SysPc.afterEmit, SysPc.pend] at f1 hm
    exact own r i t hT (ordered_run (hord r i t hT) hm').2
  have same : ∀ r' i' t', taskAt E.sys r' i' = some t' → Event.runJob t'.job.id ∈ t'.evs → (∃ st, Event.runStep st ∈ t'.evs ∧ st.id = s.id) →
      r' = r ∧ i' = i := by
    intro r' i' t' ht' hj hst
    have e := own r' i' t' ht' hst
    rw [hmine] at e
    obtain ⟨ρ', e1, e2⟩ := taskAt_some ht'
    exact hno r' i' (announced_of hsa e1 e2 (by rw [e]; exact hj))
  refine ⟨fun r' i' n' y hy he => ?_, fun r' ρ o' res hr hm he => ?_⟩
  · obtain ⟨t', q1, q2⟩ := call_handed h hy
    obtain ⟨k1, k2⟩ := ordered_run (hord r' i' t' q1) q2
    obtain ⟨rfl, rfl⟩ := same r' i' t' q1 k1 (by rw [← he]; exact k2)
    rw [hT] at q1; cases q1
    refine ⟨rfl, rfl, ?_⟩
    have hv : ((E.calls r' i').map callView)[n']? = some (some (y.command, y.net)) := by rw [List.getElem?_map, callAt_iff.1 hy]; rfl
    rw [a2] at hv
    rcases snoc_get hv with hv | ⟨rfl, _⟩
    · obtain ⟨st', x, rr, _, b2, b3, _, _, b6, _⟩ := a6.each n' _ _ hv
      exfalso
      refine hids rr ?_ ?_
      · have := List.mem_of_getElem? b2
        exact (List.mem_filter.1 this).1
      · rw [b6, ← he, b3]; rfl
    · exact hLD.symm
  · cases o' with
    | none =>
      have hmain := (runLife_reach hsa hr).main
      have : Event.stepCompleted res ∈ mainEvents ρ.trace := by
        simp only [mainEvents, List.mem_filterMap]
        exact ⟨_, hm, by simp⟩
      unfold MainLife at hmain
      split at hmain
      · rw [hmain] at this; simp at this
      all_goals first
        | (rw [hmain.1] at this; simp at this; done)
        | (rcases hmain.2.2 with q | q <;> (rw [q.2.1] at this; simp at this; done))
        | (rcases hmain.2.2 with q | q
           · rw [q.2.1] at this; simp at this
           · rw [q.2] at this; simp at this)
    | some i' =>
      have hmem : Event.stepCompleted res ∈ eventsOf i' ρ.trace := by
        simp only [eventsOf, List.mem_filterMap]
        exact ⟨_, hm, by simp⟩
      rw [(runLife_reach hsa hr).events i'] at hmem
      cases hti : ρ.tasks[i']? with
      | none => simp [hti] at hmem
      | some t' =>
        simp only [hti, Option.map_some, Option.getD_some] at hmem
        have ht' : taskAt E.sys r' i' = some t' := by simp [taskAt, hr, hti]
        obtain ⟨k1, k2⟩ := ordered_completed (hord r' i' t' ht') hmem
        obtain ⟨rfl, rfl⟩ := same r' i' t' ht' k1 (by rw [← he]; exact k2)
        rw [hT] at ht'; cases ht'
        exact hids res ((recorded_reach hsa hr (List.mem_of_getElem? hti)).1 res (List.mem_append_left _ hmem)) he

end OnlyCallLem
end AstroRun
