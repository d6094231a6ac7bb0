import Verif.Lemmas.Timing

/-! # Time stamps: where they come from -/

namespace AstroRun
open Spec

/-- Where a task is, roughly. -/
inductive TaskPhase
  | fresh
  | between
  | inside (t0 : Time)
  | done (r : JobRunResult)
  | dead
  deriving DecidableEq

/-- The phase of a place. -/
def SysPc.phase : SysPc → TaskPhase
  | .init => .fresh
  | .emitting _ k => k.phase
  | .next => .between
  | .queued _ t0 | .calling _ t0 _ | .handling _ t0 _ | .select _ t0 _ _ => .inside t0
  | .finished r | .sent r => .done r
  | .panicked _ => .dead

/-- What a move does to the phase, the stamps and the results of a task. -/
inductive PhaseMove (now : Time) (t t' : SysTask) : Prop
  | stay (h : t'.pc.phase = t.pc.phase) (h1 : t'.startedAt = t.startedAt) (h2 : t'.results = t.results)
  | skipped (h : t.pc.phase = .fresh) (r : JobRunResult) (h' : t'.pc.phase = .done r) (h1 : r.startedAt = none) (h2 : r.completedAt = none)
      (h3 : r.steps = []) (h4 : t'.results = t.results)
  | begun (h : t.pc.phase = .fresh) (h' : t'.pc.phase = .between) (h1 : t'.startedAt = now) (h2 : t'.results = [])
  | skip (h : t.pc.phase = .between) (h' : t'.pc.phase = .between) (h1 : t'.startedAt = t.startedAt) (r : StepRunResult)
      (h2 : t'.results = t.results ++ [r]) (h3 : r.startedAt = none) (h4 : r.completedAt = none) (h5 : r.state = .skipped)
  | step (h : t.pc.phase = .between) (h' : t'.pc.phase = .inside now) (h1 : t'.startedAt = t.startedAt) (h2 : t'.results = t.results)
  | finish (h : t.pc.phase = .between) (r : JobRunResult) (h' : t'.pc.phase = .done r) (h1 : r.startedAt = some t.startedAt)
      (h2 : r.completedAt = some now) (h3 : r.steps = t.results) (h4 : t'.results = t.results)
  | stepDone (t0 : Time) (h : t.pc.phase = .inside t0) (h' : t'.pc.phase = .between) (h1 : t'.startedAt = t.startedAt) (r : StepRunResult)
      (h2 : t'.results = t.results ++ [r]) (h3 : r.startedAt = some t0) (h4 : r.completedAt = some now)
  | died (t0 : Time) (h : t.pc.phase = .inside t0) (h' : t'.pc.phase = .dead) (h1 : t'.results = t.results)

theorem phase_step {now : Time} {t t' : SysTask} {a : TaskAct} (hs : t.step now a = some t') : PhaseMove now t t' := by
  cases a <;> simp only [SysTask.step] at hs
  case check b =>
    split at hs
    · rename_i hpc
      split at hs <;> cases hs
      · exact .skipped (by rw [hpc]; rfl) _ rfl rfl rfl rfl rfl
      · exact .begun (by rw [hpc]; rfl) rfl rfl rfl
    · simp at hs
  case nextStep b s =>
    split at hs
    · rename_i st rest hpc hrest
      split at hs <;> cases hs
      · exact .skip (by rw [hpc]; rfl) rfl rfl _ rfl rfl rfl rfl
      · exact .step (by rw [hpc]; rfl) rfl rfl rfl
    · simp at hs
  case finishJob =>
    split at hs
    · rename_i hpc hrest
      cases hs
      exact .finish (by rw [hpc]; rfl) _ rfl rfl rfl rfl rfl
    · simp at hs
  case refuse e =>
    split at hs
    · rename_i s t0 ref hpc
      cases hs
      exact .stepDone t0 (by rw [hpc]; rfl) rfl rfl _ rfl rfl rfl
    · simp at hs
  case accept =>
    split at hs
    · rename_i s t0 ref hpc
      cases hs
      exact .stay (by rw [hpc]; rfl) rfl rfl
    · simp at hs
  case enter =>
    split at hs
    · rename_i s t0 ref hpc
      cases hs
      exact .stay (by rw [hpc]; rfl) rfl rfl
    · simp at hs
  case timer =>
    split at hs
    · rename_i s t0 d ref hpc
      split at hs <;> cases hs
      exact .stay (by rw [hpc]; rfl) rfl rfl
    · simp at hs
  case recv =>
    split at hs
    · rename_i s t0 d ref hpc
      split at hs
      · cases hs; exact .stay (by rw [hpc]; rfl) rfl rfl
      · split at hs
        · cases hs
          exact .stepDone t0 (by rw [hpc]; rfl) rfl rfl _ rfl (stepResult_stamps _ _ _ _).2.1 (stepResult_stamps _ _ _ _).2.2
        · simp at hs
      · simp at hs
    · simp at hs
  case push l => split at hs <;> cases hs; exact .stay rfl rfl rfl
  case endStream r => split at hs <;> cases hs; exact .stay rfl rfl rfl
  all_goals cases hs

theorem phase_move {g g' : SigMgr} {ρ ρ' : SysRun} {now : Time} {i : Nat} {t : SysTask} {a : TaskAct}
    (h : Sys.taskStep g ρ now i t a = some (g', ρ')) :
    ∃ t', ρ'.tasks = ρ.tasks.set i t' ∧ t'.job = t.job ∧ PhaseMove now t t' := by
  obtain ⟨t', h1, _, h3, _, _, _, _, _, _, hc⟩ := taskStep_frame h
  refine ⟨t', h1, h3, ?_⟩
  rcases hc with ⟨e, es, k, hpc, rfl, _⟩ | ⟨k, hpc, rfl, _⟩ | ⟨s, t0, ref, hpc, rfl, _⟩ | ⟨s, t0, hpc, rfl, _⟩ |
    ⟨s, t0, d, ref, sg, hpc, rfl, _⟩ | ⟨r, hpc, rfl, _⟩ | ⟨hs, _⟩
  · exact .stay (by rw [hpc]; rfl) rfl rfl
  · exact .stay (by rw [hpc]; rfl) rfl rfl
  · exact .stay (by rw [hpc]; rfl) rfl rfl
  · exact .died t0 (by rw [hpc]; rfl) rfl rfl
  · exact .stay (by rw [hpc]; rfl) rfl rfl
  · exact .stay (by rw [hpc]; rfl) rfl rfl
  · exact phase_step hs

/-- What stays true of a run through its own moves stays true. -/
theorem run_persist {P : SysRun → Prop} (hm : ∀ now ρ a ρ', P ρ → SysRun.main now ρ a = some ρ' → P ρ')
    (ht : ∀ g g' now ρ ρ' i t a, P ρ → ρ.tasks[i]? = some t → Sys.taskStep g ρ now i t a = some (g', ρ') → P ρ')
    {r : Nat} : ∀ (more : List SysAct) {M M' : Sys} {ρ : SysRun}, M.runs[r]? = some ρ → P ρ → runs Sys.step M more = some M' →
      ∃ ρ', M'.runs[r]? = some ρ' ∧ P ρ' := by
  intro more
  induction more with
  | nil =>
    intro M M' ρ hr hp h
    simp only [runs, Option.some.injEq] at h
    subst h
    exact ⟨ρ, hr, hp⟩
  | cons a more ih =>
    intro M M' ρ hr hp h
    simp only [runs] at h
    split at h
    · rename_i M1 hs
      have : ∃ ρ1, M1.runs[r]? = some ρ1 ∧ P ρ1 := by
        rcases sys_step_cases hs with ⟨wf, rfl, rfl⟩ | ⟨n, b, ρ₁, ρ₂, rfl, hρ, hmm, rfl⟩ |
          ⟨n, i, b, ρ₁, t, g', ρ₂, rfl, hρ, htt, hmm, rfl⟩ | ⟨n, rfl, rfl⟩ | ⟨j, x, rfl, rfl⟩
        · exact ⟨ρ, by simp only [List.getElem?_append_left (List.getElem?_eq_some_iff.1 hr).1]; exact hr, hp⟩
        · by_cases he : n = r
          · subst he
            rw [hr] at hρ
            cases hρ
            exact ⟨ρ₂, by simp [(List.getElem?_eq_some_iff.1 hr).1], hm _ _ _ _ hp hmm⟩
          · exact ⟨ρ, by simp [he, hr], hp⟩
        · by_cases he : n = r
          · subst he
            rw [hr] at hρ
            cases hρ
            exact ⟨ρ₂, by simp [(List.getElem?_eq_some_iff.1 hr).1], ht _ _ _ _ _ _ _ _ hp htt hmm⟩
          · exact ⟨ρ, by simp [he, hr], hp⟩
        · exact ⟨ρ, hr, hp⟩
        · exact ⟨ρ, hr, hp⟩
      obtain ⟨ρ1, h1, h2⟩ := this
      exact ih h1 h2 h
    · cases h

/-- What stays true of a task through its own moves stays true. -/
theorem task_persist {Q : SysTask → Prop} (hq : ∀ now t t', Q t → PhaseMove now t t' → Q t') {r i : Nat}
    (more : List SysAct) {M M' : Sys} {t : SysTask} (ht : taskAt M r i = some t) (hp : Q t)
    (h : runs Sys.step M more = some M') : ∃ t', taskAt M' r i = some t' ∧ Q t' := by
  unfold taskAt at ht
  obtain ⟨ρ, hr, ht⟩ := Option.bind_eq_some_iff.1 ht
  obtain ⟨ρ', h1, t', h2, h3⟩ := run_persist (P := fun ρ => ∃ t, ρ.tasks[i]? = some t ∧ Q t) (r := r) (by
      rintro now ρ a ρ' ⟨t, h1, h2⟩ hm
      obtain ⟨es, hes⟩ := main_fresh hm
      refine ⟨t, ?_, h2⟩
      rw [hes, List.getElem?_append_left (List.getElem?_eq_some_iff.1 h1).1]
      exact h1)
    (by
      rintro g g' now ρ ρ' n u a ⟨t, h1, h2⟩ hu hm
      obtain ⟨u', e1, _, e3⟩ := phase_move hm
      by_cases he : n = i
      · subst he
        rw [h1] at hu
        cases hu
        exact ⟨u', by rw [e1]; simp [(List.getElem?_eq_some_iff.1 h1).1], hq _ _ _ h2 e3⟩
      · exact ⟨t, by rw [e1]; simp [he, h1], h2⟩)
    more hr ⟨t, ht, hp⟩ h
  exact ⟨t', by simp [taskAt, h1, h2], h3⟩

/-- The rest of a schedule. -/
theorem split_reach {pre post : List SysAct} {a : SysAct} {M0 M : Sys} (h0 : SysReach pre M0) (h : SysReach (pre ++ a :: post) M) :
    ∃ M1, M0.step a = some M1 ∧ runs Sys.step M1 post = some M := by
  unfold SysReach at h0 h
  rw [runs_append, h0] at h
  simp only [Option.bind_some, runs] at h
  split at h
  · rename_i M1 hs
    exact ⟨M1, hs, h⟩
  · cases h

/-- The moves of one task. -/
theorem task_act {M M' : Sys} {r i : Nat} {a : TaskAct} (h : M.step (.task r i a) = some M') :
    ∃ ρ t t', M.runs[r]? = some ρ ∧ taskAt M r i = some t ∧ taskAt M' r i = some t' ∧ PhaseMove M.now t t' ∧
      ((∃ g ρ', Sys.taskStep M.mgr ρ M.now i t a = some (g, ρ') ∧ ρ'.tasks[i]? = some t')) := by
  rcases sys_step_cases h with ⟨wf, h1, _⟩ | ⟨n, b, ρ₁, ρ₂, h1, _⟩ |
    ⟨n, j, b, ρ, t, g', ρ', h1, hρ, htt, hmm, rfl⟩ | ⟨n, h1, _⟩ | ⟨j, x, h1, _⟩
  all_goals cases h1
  obtain ⟨t', e1, _, e3⟩ := phase_move hmm
  have hi := (List.getElem?_eq_some_iff.1 htt).1
  have ht' : ρ'.tasks[i]? = some t' := by rw [e1]; simp [hi]
  exact ⟨ρ, t, t', hρ, by simp [taskAt, hρ, htt], by simp [taskAt, (List.getElem?_eq_some_iff.1 hρ).1, ht'], e3, g', ρ', hmm, ht'⟩

theorem answer_phase {t : SysTask} {jr : JobRunResult} (h : SysTask.answer t = some jr) : t.pc.phase = .done jr := by
  unfold SysTask.answer at h
  split at h
  · rename_i r hpc; cases h; rw [hpc]; rfl
  · rename_i r hpc; cases h; rw [hpc]; rfl
  · cases h


/-- What holds of new tasks and survives every move holds of all tasks. -/
theorem task_always {Q : SysTask → Prop} (hnew : ∀ e : Id × Job, Q { key := e.1, job := e.2 })
    (hq : ∀ now t t', Q t → PhaseMove now t t' → Q t') {acts : List SysAct} {M : Sys} (h : SysReach acts M) :
    ∀ (r : Nat) (ρ : SysRun), M.runs[r]? = some ρ → ∀ t ∈ ρ.tasks, Q t := by
  refine runs_induct (P := fun _ M => ∀ (r : Nat) (ρ : SysRun), M.runs[r]? = some ρ → ∀ t ∈ ρ.tasks, Q t) ?_ ?_ h
  · intro r ρ hr
    simp at hr
  · intro _ M a M' _ ih hs r ρ hr
    rcases sys_step_cases hs with ⟨wf, rfl, rfl⟩ | ⟨n, b, ρ₁, ρ₂, rfl, hρ, hm, rfl⟩ |
      ⟨n, i, b, ρ₁, t, g', ρ₂, rfl, hρ, ht, hm, rfl⟩ | ⟨n, rfl, rfl⟩ | ⟨j, x, rfl, rfl⟩
    · simp only [List.getElem?_append] at hr
      split at hr
      · exact ih r ρ hr
      · obtain rfl := List.mem_singleton.1 (List.mem_of_getElem? hr)
        simp
    · simp only [List.getElem?_set] at hr
      split at hr
      · split at hr
        · cases hr
          obtain ⟨es, he⟩ := main_fresh hm
          rw [he]
          intro t ht
          rcases List.mem_append.1 ht with ht | ht
          · exact ih n ρ₁ hρ t ht
          · obtain ⟨e, _, rfl⟩ := List.mem_map.1 ht
            exact hnew e
        · cases hr
      · exact ih r ρ hr
    · simp only [List.getElem?_set] at hr
      split at hr
      · split at hr
        · cases hr
          obtain ⟨t', e1, _, e3⟩ := phase_move hm
          rw [e1]
          intro u hu
          rcases List.mem_or_eq_of_mem_set hu with hu | rfl
          · exact ih n ρ₁ hρ u hu
          · exact hq _ _ _ (ih n ρ₁ hρ t (List.mem_of_getElem? ht)) e3
        · cases hr
      · exact ih r ρ hr
    · exact ih r ρ hr
    · exact ih r ρ hr

/-- The steps of a delivered result are the results of the task. -/
theorem answer_steps {acts : List SysAct} {M : Sys} (h : SysReach acts M) {r i : Nat} {t : SysTask} (ht : taskAt M r i = some t)
    {jr : JobRunResult} (ha : SysTask.answer t = some jr) : jr.steps = t.results := by
  obtain ⟨ρ, hρ, htt⟩ := Option.bind_eq_some_iff.1 ht
  have := task_always (Q := fun t => (t.pc.phase = .fresh → t.results = []) ∧ ∀ r, t.pc.phase = .done r → r.steps = t.results)
    (by simp [SysPc.phase]) (by
      rintro now t t' ⟨hf, hq⟩ hm
      have hf' : t'.pc.phase = .fresh → t'.results = [] := by
        intro hx
        cases hm with
        | stay h h1 h2 => rw [h2]; exact hf (h ▸ hx)
        | skipped h r' h' => rw [h'] at hx; cases hx
        | begun h h' => rw [h'] at hx; cases hx
        | skip h h' => rw [h'] at hx; cases hx
        | step h h' => rw [h'] at hx; cases hx
        | finish h r' h' => rw [h'] at hx; cases hx
        | stepDone _ h h' => rw [h'] at hx; cases hx
        | died _ h h' => rw [h'] at hx; cases hx
      refine ⟨hf', ?_⟩
      intro r hr
      cases hm with
      | stay h h1 h2 => rw [h2]; exact hq r (h ▸ hr)
      | skipped h r' h' h1 h2 h3 h4 => rw [h'] at hr; cases hr; rw [h3, h4, hf h]
      | begun h h' => rw [h'] at hr; cases hr
      | skip h h' => rw [h'] at hr; cases hr
      | step h h' => rw [h'] at hr; cases hr
      | finish h r' h' h1 h2 h3 h4 => rw [h'] at hr; cases hr; rw [h3, h4]
      | stepDone _ h h' => rw [h'] at hr; cases hr
      | died _ h h' => rw [h'] at hr; cases hr) h r ρ hρ t (List.mem_of_getElem? htt)
  exact this.2 jr (answer_phase ha)

end AstroRun
