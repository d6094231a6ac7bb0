import Verif.Lemmas.SystemSim

/-! # The engine refines the workflow machine: every run of every schedule -/

namespace AstroRun
open Spec

/-! ## What one task move does -/

theorem QueuedIn.step {w : Id} {t t' : SysTask} {now : Time} {a : TaskAct} (hq : QueuedIn w t)
    (h : t.step now a = some t') (ha : ∀ b s, a = .nextStep b s → s.id.workflow = w) : QueuedIn w t' := by
  intro s t0 hs
  task_cases a h
  all_goals first
    | exact hq s t0 hs
    | (simp [SysTask.emitThen, SysTask.stepDone] at hs; done)
    | (simp [SysTask.emitThen] at hs
       obtain ⟨rfl, _⟩ := hs
       exact ha _ _ rfl)

/-- The task after a move, and what did not change. -/
theorem taskStep_ok {g g' : SigMgr} {ρ ρ' : SysRun} {now : Time} {i : Nat} {t : SysTask} {a : TaskAct}
    (hok : SysOk t) (hq : QueuedIn ρ.wf.id.id t) (h : Sys.taskStep g ρ now i t a = some (g', ρ'))
    (ha : ∀ b s, a = .nextStep b s → s.id.workflow = ρ.wf.id.id) :
    (∃ t', ρ'.tasks = ρ.tasks.set i t' ∧ SysOk t' ∧ t'.key = t.key ∧ t'.job = t.job ∧ QueuedIn ρ.wf.id.id t') ∧
    ρ'.wf = ρ.wf ∧ ρ'.pc = ρ.pc ∧ ρ'.waiting = ρ.waiting ∧
    (g'.signals = g.signals ∨ ∃ e es k, t.pc = .emitting (e :: es) k ∧ g' = g.noted e) := by
  unfold Sys.taskStep at h
  split at h
  · split at h
    · rename_i k hpc
      cases h
      refine ⟨⟨_, rfl, hok.leave hpc, rfl, rfl, ?_⟩, rfl, rfl, rfl, .inl rfl⟩
      rintro s t0 (hs | ⟨es, hs⟩)
      · exact hq s t0 (.inr ⟨[], by rw [hpc]; simpa using hs⟩)
      · exact absurd hs ((hok.2.2.2 _ _ hpc).2.1 _ _)
    · rename_i e es k hpc
      cases h
      refine ⟨⟨_, rfl, hok.emit hpc, rfl, rfl, ?_⟩, rfl, rfl, rfl, .inr ⟨e, es, k, hpc, rfl⟩⟩
      rintro s t0 (hs | ⟨es, hs⟩)
      · simp at hs
      · simp only [SysPc.emitting.injEq] at hs
        exact hq s t0 (.inr ⟨_, by rw [hpc, hs.2]⟩)
    · simp at h
  · split at h
    · rename_i s t0 hpc
      split at h
      · cases h
        exact ⟨⟨_, rfl, hok.called hpc, rfl, rfl, by simp [QueuedIn]⟩, rfl, rfl, rfl, .inl rfl⟩
      · cases h
        exact ⟨⟨_, rfl, hok.panicked hpc, rfl, rfl, by simp [QueuedIn]⟩, rfl, rfl, rfl, .inl rfl⟩
    · simp at h
  · split at h
    · rename_i s t0 d ref hpc
      split at h
      · split at h
        · cases h
          exact ⟨⟨_, rfl, hok.signalled hpc, rfl, rfl, by simp [QueuedIn]⟩, rfl, rfl, rfl, .inl rfl⟩
        · simp at h
      · simp at h
    · simp at h
  · split at h
    · rename_i r hpc
      split at h
      · cases h
        exact ⟨⟨_, rfl, hok.sent hpc, rfl, rfl, by simp [QueuedIn]⟩, rfl, rfl, rfl, .inl rfl⟩
      · split at h
        · cases h
          exact ⟨⟨_, rfl, hok.sent hpc, rfl, rfl, by simp [QueuedIn]⟩, rfl, rfl, rfl, .inl rfl⟩
        · simp at h
    · simp at h
  · cases hs : t.step now a with
    | none => simp [hs] at h
    | some t' =>
      simp only [hs, Option.map_some, Option.some.injEq, Prod.mk.injEq] at h
      obtain ⟨rfl, rfl⟩ := h
      obtain ⟨hjob, hkey, _⟩ := SysTask.step_job hs
      exact ⟨⟨t', rfl, hok.step hs, hkey, hjob, hq.step hs ha⟩, rfl, rfl, rfl, .inl rfl⟩

/-! ## The invariant -/

/-- What is known about a run of the engine. -/
structure RunOk (ρ : SysRun) : Prop where
  tasks : ∀ (i : Nat) (t : SysTask), ρ.tasks[i]? = some t → SysOk t ∧ (t.key, t.job) ∈ ρ.wf.jobs ∧ QueuedIn ρ.wf.id.id t
  waiting : ∀ e ∈ ρ.waiting, e ∈ ρ.wf.jobs
  setup : ∀ rest, ρ.pc = .setup rest → ∀ e ∈ rest, e ∈ ρ.wf.jobs

theorem RunOk.main {ρ ρ' : SysRun} {now : Time} {a : MainAct} (hr : RunOk ρ) (h : ρ.main now a = some ρ') :
    RunOk ρ' ∧ ρ'.wf = ρ.wf := by
  obtain ⟨hw, ⟨es, hes, ht⟩, hwt, hst⟩ := main_tasks h hr.waiting hr.setup
  refine ⟨⟨?_, by rwa [hw], by rwa [hw]⟩, hw⟩
  intro i t hi
  rw [ht, List.getElem?_append] at hi
  split at hi
  · rw [hw]; exact hr.tasks i t hi
  · obtain ⟨e, he, rfl⟩ := List.mem_map.1 (List.mem_of_getElem? hi)
    rw [hw]
    exact ⟨SysOk.new _ _, hes e he, by simp [QueuedIn]⟩

theorem RunOk.task {g g' : SigMgr} {ρ ρ' : SysRun} {now : Time} {i : Nat} {t : SysTask} {a : TaskAct} (hr : RunOk ρ)
    (ht : ρ.tasks[i]? = some t) (h : Sys.taskStep g ρ now i t a = some (g', ρ'))
    (ha : ∀ b s, a = .nextStep b s → s.id.workflow = ρ.wf.id.id) : RunOk ρ' ∧ ρ'.wf = ρ.wf := by
  obtain ⟨hok, hjob, hq⟩ := hr.tasks i t ht
  obtain ⟨⟨t', htk, hok', hk, hj, hq'⟩, hw, hpc, hwt, _⟩ := taskStep_ok hok hq h ha
  refine ⟨⟨?_, by rw [hw, hwt]; exact hr.waiting, by rw [hw, hpc]; exact hr.setup⟩, hw⟩
  intro n u hu
  rw [hw]
  rw [htk, List.getElem?_set] at hu
  split at hu
  · split at hu
    · cases hu
      exact ⟨hok', by rw [hk, hj]; exact hjob, hq'⟩
    · simp at hu
  · exact hr.tasks n u hu

/-- The run is a run of the workflow machine, whatever the future brings. -/
def Simulated (g : SigMgr) (ρ : SysRun) : Prop :=
  ∀ E, Consistent E ρ → ∃ wacts reg, WfReach ρ.wf wacts (absRun (byEnv E) ρ reg) ∧ RegOk ρ.wf.id.id reg g ∧
    ∀ n env, WfAct.begin n env ∈ wacts → env = E n

theorem Simulated.main {g : SigMgr} {ρ ρ' : SysRun} {now : Time} {a : MainAct} (hr : RunOk ρ) (hs : Simulated g ρ)
    (h : ρ.main now a = some ρ') : Simulated g ρ' := by
  intro E hE
  obtain ⟨hw, ⟨es, hes, ht⟩, _, _⟩ := main_tasks h hr.waiting hr.setup
  have hE0 : Consistent E ρ := by
    intro i t hi hn
    refine hE i t ?_ hn
    rw [ht, List.getElem?_append_left (List.getElem?_eq_some_iff.1 hi).1]
    exact hi
  obtain ⟨wacts, reg, hreach, hreg, hbeg⟩ := hs E hE0
  refine ⟨wacts ++ [a.toWf now], reg, ?_, by rwa [hw], ?_⟩
  swap
  · intro n env hm
    rcases List.mem_append.1 hm with hm | hm
    · exact hbeg n env hm
    · cases a <;> simp [MainAct.toWf] at hm
  rw [hw]
  exact runs_snoc.2 ⟨_, hreach, absRun_main (byEnv_new E) h⟩

theorem Simulated.task {g g' : SigMgr} {ρ ρ' : SysRun} {now : Time} {i : Nat} {t : SysTask} {a : TaskAct} (hr : RunOk ρ)
    (hs : Simulated g ρ) (ht : ρ.tasks[i]? = some t) (h : Sys.taskStep g ρ now i t a = some (g', ρ'))
    (hw : ρ'.wf = ρ.wf) : Simulated g' ρ' := by
  obtain ⟨hok, hjob, hq⟩ := hr.tasks i t ht
  intro E hE
  obtain ⟨hE0, hsim⟩ := sim_task ht hok hq h hE
  obtain ⟨wacts, reg, hreach, hreg, hbeg⟩ := hs E hE0
  obtain ⟨wa, reg', hreg', hbw, hm⟩ := hsim reg hreg
  rw [hw]
  cases wa with
  | none =>
    simp only at hm
    exact ⟨wacts, reg', by rw [hm]; exact hreach, hreg', hbeg⟩
  | some wa =>
    simp only at hm
    refine ⟨wacts ++ [wa], reg', runs_snoc.2 ⟨_, hreach, hm⟩, hreg', ?_⟩
    intro n env hmem
    rcases List.mem_append.1 hmem with hmem | hmem
    · exact hbeg n env hmem
    · simp only [List.mem_singleton] at hmem
      exact hbw n env (by rw [hmem])

/-- A move of another run does not matter. -/
theorem Simulated.other {g g' : SigMgr} {ρ : SysRun} (hs : Simulated g ρ)
    (h : ∀ reg, RegOk ρ.wf.id.id reg g → RegOk ρ.wf.id.id reg g') : Simulated g' ρ := by
  intro E hE
  obtain ⟨wacts, reg, hreach, hreg, hbeg⟩ := hs E hE
  exact ⟨wacts, reg, hreach, h reg hreg, hbeg⟩

theorem RegOk.same {w : Id} {reg : List JobId} {g g' : SigMgr} (h : RegOk w reg g) (he : g'.signals = g.signals) :
    RegOk w reg g' := by
  intro j hj
  rw [he]; exact h j hj

theorem cancelJob_signals (g : SigMgr) (j : JobId) : (g.cancelJob j).1.signals = g.signals := by
  unfold SigMgr.cancelJob SigMgr.cancelRef
  split
  · rfl
  · split <;> rfl

theorem started_snoc (acts : List SysAct) (a : SysAct) :
    started (acts ++ [a]) = started acts ++ (match a with | .start wf => [wf] | _ => []) := by
  unfold started
  rw [List.filterMap_append]
  cases a <;> rfl

theorem Spec.Apart.init {acts : List SysAct} {a : SysAct} (h : Apart (acts ++ [a])) : Apart acts := by
  have hs := started_snoc acts a
  refine ⟨?_, ?_, ?_⟩
  · have := h.distinct
    rw [hs, List.map_append, List.nodup_append] at this
    exact this.1
  · intro wf hwf
    exact h.own wf (by rw [hs]; exact List.mem_append_left _ hwf)
  · intro r i b s hm wf hwf
    refine h.hooks r i b s (List.mem_append_left _ hm) wf ?_
    rw [hs, List.getElem?_append_left (List.getElem?_eq_some_iff.1 hwf).1]
    exact hwf

/-- Everything that is known about the engine. -/
structure EngineOk (acts : List SysAct) (M : Sys) : Prop where
  wfs : M.runs.map SysRun.wf = started acts
  keys : ∀ j, M.mgr.signals.contains j = true → ∃ ρ ∈ M.runs, j.workflow = ρ.wf.id.id
  runs : ∀ (r : Nat) (ρ : SysRun), M.runs[r]? = some ρ → RunOk ρ
  sim : ∀ (r : Nat) (ρ : SysRun), M.runs[r]? = some ρ → Simulated M.mgr ρ

theorem map_set_same {α β : Type} {f : α → β} {l : List α} {i : Nat} {a a' : α} (h : l[i]? = some a) (he : f a' = f a) :
    (l.set i a').map f = l.map f := by
  apply List.ext_getElem?
  intro n
  simp only [List.getElem?_map, List.getElem?_set]
  split
  · rename_i hn
    subst hn
    obtain ⟨h1, h2⟩ := List.getElem?_eq_some_iff.1 h
    simp [h1, h2, he]
  · rfl

theorem EngineOk.step {acts : List SysAct} {M M' : Sys} {a : SysAct} (hap : Apart (acts ++ [a])) (hok : EngineOk acts M)
    (h : M.step a = some M') : EngineOk (acts ++ [a]) M' := by
  have hstart := started_snoc acts a
  -- two runs with the same workflow id are the same run
  have huniq : ∀ (r r' : Nat) (ρ ρ' : SysRun), M.runs[r]? = some ρ → M.runs[r']? = some ρ' → ρ.wf.id.id = ρ'.wf.id.id → r = r' := by
    intro r r' ρ ρ' h1 h2 he
    have hd := hap.init.distinct
    rw [← hok.wfs, List.map_map] at hd
    refine (List.getElem?_inj (l := M.runs.map (Workflow.id ∘ SysRun.wf)) ?_ hd).1 ?_
    · simp [(List.getElem?_eq_some_iff.1 h1).1]
    · simp only [List.getElem?_map, h1, h2, Option.map_some, Function.comp]
      congr 1
      cases hx : ρ.wf.id; cases hy : ρ'.wf.id
      simp_all
  cases a with
  | start wf =>
    simp only [Sys.step, Option.some.injEq] at h
    subst h
    refine ⟨?_, ?_, ?_, ?_⟩
    · simp [hstart, hok.wfs]
    · intro j hj
      obtain ⟨ρ, hρ, he⟩ := hok.keys j hj
      exact ⟨ρ, List.mem_append_left _ hρ, he⟩
    · intro r ρ hρ
      simp only [List.getElem?_append] at hρ
      split at hρ
      · exact hok.runs r ρ hρ
      · obtain rfl := List.mem_singleton.1 (List.mem_of_getElem? hρ)
        exact ⟨by simp, by simp, by simp⟩
    · intro r ρ hρ
      simp only [List.getElem?_append] at hρ
      split at hρ
      · exact hok.sim r ρ hρ
      · obtain rfl := List.mem_singleton.1 (List.mem_of_getElem? hρ)
        intro E hE
        refine ⟨[], [], rfl, ?_, by simp⟩
        intro j hj
        simp only [List.not_mem_nil, false_iff]
        intro hc
        obtain ⟨ρ, hρ, he⟩ := hok.keys j hc
        have hd := hap.distinct
        rw [hstart, List.map_append, List.nodup_append] at hd
        have h1 : ρ.wf.id ∈ (started acts).map Workflow.id := by
          rw [← hok.wfs, List.map_map]
          exact List.mem_map.2 ⟨ρ, hρ, rfl⟩
        refine hd.2.2 _ h1 wf.id (by simp) ?_
        have : ρ.wf.id.id = wf.id.id := by rw [← he, hj]
        cases hx : ρ.wf.id; cases hy : wf.id
        simp_all
  | main r a =>
    simp only [Sys.step] at h
    cases hρ : M.runs[r]? with
    | none => simp [hρ] at h
    | some ρ =>
      cases hm : ρ.main M.now a with
      | none => simp [hρ, hm] at h
      | some ρ' =>
        simp [hρ, hm] at h
        subst h
        obtain ⟨hr', hw⟩ := (hok.runs r ρ hρ).main hm
        have hlen := (List.getElem?_eq_some_iff.1 hρ).1
        refine ⟨?_, ?_, ?_, ?_⟩
        · simp only [hstart, List.append_nil]
          rw [map_set_same hρ hw]
          exact hok.wfs
        · intro j hj
          obtain ⟨ρ₁, h1, h2⟩ := hok.keys j hj
          obtain ⟨n, hn⟩ := List.mem_iff_getElem?.1 h1
          by_cases he : r = n
          · subst he
            rw [hρ] at hn
            cases hn
            exact ⟨ρ', List.mem_iff_getElem?.2 ⟨r, by simp [hlen]⟩, by rw [hw]; exact h2⟩
          · exact ⟨ρ₁, List.mem_iff_getElem?.2 ⟨n, by simp [he, hn]⟩, h2⟩
        · intro n ρ₁ hn
          simp only [List.getElem?_set] at hn
          split at hn
          · cases hn; exact hr'
          · exact hok.runs n ρ₁ hn
        · intro n ρ₁ hn
          simp only [List.getElem?_set] at hn
          split at hn
          · cases hn; exact (hok.sim r ρ hρ).main (hok.runs r ρ hρ) hm
          · exact hok.sim n ρ₁ hn
  | task r i a =>
    simp only [Sys.step] at h
    cases hρ : M.runs[r]? with
    | none => simp [hρ] at h
    | some ρ =>
      cases ht : ρ.tasks[i]? with
      | none => simp [hρ, ht] at h
      | some t =>
        cases hm : Sys.taskStep M.mgr ρ M.now i t a with
        | none => simp [hρ, ht, hm] at h
        | some p =>
          obtain ⟨g', ρ'⟩ := p
          simp [hρ, ht, hm] at h
          subst h
          have hlen := (List.getElem?_eq_some_iff.1 hρ).1
          have hwf : (started acts)[r]? = some ρ.wf := by rw [← hok.wfs]; simp [hρ]
          have hha : ∀ b s, a = .nextStep b s → s.id.workflow = ρ.wf.id.id := by
            rintro b s rfl
            refine hap.hooks r i b s (by simp) ρ.wf ?_
            simp [hstart, hwf]
          obtain ⟨hr', hw⟩ := (hok.runs r ρ hρ).task ht hm hha
          obtain ⟨hsok, hjob, hq⟩ := (hok.runs r ρ hρ).tasks i t ht
          have hjw : t.job.id.workflow = ρ.wf.id.id :=
            hap.init.own ρ.wf (List.mem_of_getElem? hwf) t.key t.job hjob
          obtain ⟨_, _, _, _, hg⟩ := taskStep_ok hsok hq hm hha
          -- the notification concerns this run's workflow
          have hown : ∀ e es k, t.pc = .emitting (e :: es) k →
              (∀ id, e = .runJob id → id.workflow = ρ.wf.id.id) ∧ (∀ jr, e = .jobCompleted jr → jr.id.workflow = ρ.wf.id.id) := by
            intro e es k hpc
            have := hsok.2.1 e (by simp [hpc, SysPc.pend])
            exact ⟨fun id hid => by rw [this.1 id hid, hjw], fun jr hjr => by rw [this.2.1 jr hjr, hjw]⟩
          refine ⟨?_, ?_, ?_, ?_⟩
          · simp only [hstart, List.append_nil]
            rw [map_set_same hρ hw]
            exact hok.wfs
          · intro j hj
            have hcase : j.workflow = ρ.wf.id.id ∨ M.mgr.signals.contains j = true := by
              rcases hg with hg | ⟨e, es, k, hpc, rfl⟩
              · rw [hg] at hj; exact .inr hj
              · simp only at hj
                rw [SigMgr.noted_contains] at hj
                cases e <;> simp_all
                rcases hj with rfl | hj
                · exact .inl hown
                · exact .inr hj
            have key : j.workflow = ρ.wf.id.id → ∃ ρ₁ ∈ M.runs.set r ρ', j.workflow = ρ₁.wf.id.id := fun hjw' =>
              ⟨ρ', List.mem_iff_getElem?.2 ⟨r, by simp [hlen]⟩, by rw [hw]; exact hjw'⟩
            rcases hcase with hc | hc
            · exact key hc
            · obtain ⟨ρ₁, h1, h2⟩ := hok.keys j hc
              obtain ⟨n, hn⟩ := List.mem_iff_getElem?.1 h1
              by_cases he : r = n
              · subst he
                rw [hρ] at hn
                cases hn
                exact key h2
              · exact ⟨ρ₁, List.mem_iff_getElem?.2 ⟨n, by simp [he, hn]⟩, h2⟩
          · intro n ρ₁ hn
            simp only [List.getElem?_set] at hn
            split at hn
            · cases hn; exact hr'
            · exact hok.runs n ρ₁ hn
          · intro n ρ₁ hn
            simp only [List.getElem?_set] at hn
            split at hn
            · cases hn; exact (hok.sim r ρ hρ).task (hok.runs r ρ hρ) ht hm hw
            · rename_i hne
              refine (hok.sim n ρ₁ hn).other fun reg hreg => ?_
              rcases hg with hg | ⟨e, es, k, hpc, rfl⟩
              · exact hreg.same hg
              · have hne' : ρ.wf.id.id ≠ ρ₁.wf.id.id := fun he => hne (huniq r n ρ ρ₁ hρ hn he)
                obtain ⟨o1, o2⟩ := hown e es k hpc
                exact hreg.other (fun id hid => by rw [o1 id hid]; exact hne') (fun jr hjr => by rw [o2 jr hjr]; exact hne')
  | tick n =>
    simp only [Sys.step, Option.some.injEq] at h
    subst h
    exact ⟨by simpa [hstart] using hok.wfs, hok.keys, hok.runs, hok.sim⟩
  | cancel j =>
    simp only [Sys.step, Option.some.injEq] at h
    subst h
    have hsg := cancelJob_signals M.mgr j
    refine ⟨by simpa [hstart] using hok.wfs, ?_, hok.runs, ?_⟩
    · intro j' hj'
      simp only at hj'
      rw [hsg] at hj'
      exact hok.keys j' hj'
    · intro r ρ hρ
      exact (hok.sim r ρ hρ).other fun reg hreg => hreg.same hsg

theorem engineOk_reach {acts : List SysAct} {M : Sys} (hap : Apart acts) (h : SysReach acts M) : EngineOk acts M := by
  induction acts using List.reverseRecOn generalizing M with
  | nil =>
    simp only [SysReach, runs, Option.some.injEq] at h
    subst h
    exact ⟨rfl, by simp [AMap.contains], by simp, by simp⟩
  | append_singleton acts a ih =>
    obtain ⟨M0, hm, hs⟩ := runs_snoc.1 h
    exact (ih hap.init hm).step hap hs

/-- A future that fits all tasks. -/
theorem RunOk.future {ρ : SysRun} (h : RunOk ρ) : ∃ E, Consistent E ρ := by
  have : ∀ i : Nat, ∃ env, ∀ t, ρ.tasks[i]? = some t → t.pc ≠ .init → Fits env t := by
    intro i
    cases ht : ρ.tasks[i]? with
    | none => exact ⟨{}, by simp⟩
    | some t =>
      by_cases hi : t.pc = .init
      · exact ⟨{}, fun u hu hn => by cases hu; exact absurd hi hn⟩
      · obtain ⟨env, hf⟩ := (h.tasks i t ht).1.fits hi
        exact ⟨env, fun u hu _ => by cases hu; exact hf⟩
  choose E hE using this
  exact ⟨E, fun i t ht hn => hE i t ht hn⟩

end AstroRun
