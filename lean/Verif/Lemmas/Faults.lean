import Verif.Spec.Faults
import Verif.Props.SystemAlone
import Verif.Lemmas.TimingExact

/-! # Lemmas about runs that are given up and jobs whose user code panics -/

namespace AstroRun
open Spec

theorem goes_snoc (acts : List FaultAct) (a : FaultAct) : goes (acts ++ [a]) = goes acts ++ goes [a] := by simp [goes]

theorem goes_append (acts more : List FaultAct) : goes (acts ++ more) = goes acts ++ goes more := by simp [goes]

theorem goes_map (acts : List SysAct) : goes (acts.map .go) = acts := by
  induction acts with
  | nil => rfl
  | cons a acts ih => simp only [goes, List.map_cons, List.filterMap_cons] at ih ⊢; rw [ih]

/-- What a move does. -/
theorem fault_step_cases {F F' : Faulty} {a : FaultAct} (h : F.step a = some F') :
    (∃ b M, a = .go b ∧ F.allows b = true ∧ F.sys.step b = some M ∧ F' = { F with sys := M }) ∨
    (∃ r ρ, a = .drop r ∧ F.sys.runs[r]? = some ρ ∧ r ∉ F.gone ∧ (∀ res, ρ.pc ≠ .returned res) ∧ F' = { F with gone := r :: F.gone }) ∨
    (∃ r i t, a = .crash r i ∧ taskAt F.sys r i = some t ∧ (r, i) ∉ F.dead ∧ t.pc.callsUsers = true ∧
      F' = { F with dead := (r, i) :: F.dead }) ∨
    (∃ r i t res, a = .giveUp r i ∧ taskAt F.sys r i = some t ∧ t.pc = .finished res ∧ r ∈ F.gone ∧ F' = { F with lost := (r, i) :: F.lost }) := by
  cases a with
  | go b =>
    simp only [Faulty.step] at h
    split at h
    · cases hs : F.sys.step b with
      | none => simp [hs] at h
      | some M =>
        simp only [hs, Option.map_some, Option.some.injEq] at h
        exact .inl ⟨b, M, rfl, ‹_›, hs, h.symm⟩
    · cases h
  | drop r =>
    simp only [Faulty.step] at h
    split at h
    · rename_i ρ hρ
      split at h
      · cases h
      · rename_i hc
        cases h
        simp only [Bool.or_eq_true, List.contains_iff_mem, not_or, Bool.not_eq_true] at hc
        refine .inr (.inl ⟨r, ρ, rfl, hρ, hc.1, ?_, rfl⟩)
        intro res hres
        simp [hres, WfPc.isReturned] at hc
    · cases h
  | crash r i =>
    simp only [Faulty.step] at h
    split at h
    · rename_i t ht
      split at h
      · cases h
      · rename_i hc
        cases h
        simp only [Bool.or_eq_true, List.contains_iff_mem, not_or, Bool.not_eq_true, Bool.not_eq_false'] at hc
        exact .inr (.inr (.inl ⟨r, i, t, rfl, ht, hc.1, hc.2, rfl⟩))
    · cases h
  | giveUp r i =>
    simp only [Faulty.step] at h
    split at h
    · rename_i t ht
      split at h
      · rename_i res hpc
        split at h
        · rename_i hc
          cases h
          simp only [Bool.and_eq_true, List.contains_iff_mem] at hc
          exact .inr (.inr (.inr ⟨r, i, t, res, rfl, ht, hpc, hc.1, rfl⟩))
        · cases h
      · cases h
    · cases h

/-- The engine does not notice. -/
theorem fault_sys {acts : List FaultAct} {F : Faulty} (h : FaultReach acts F) : SysReach (goes acts) F.sys := by
  refine runs_induct (P := fun acts (F : Faulty) => SysReach (goes acts) F.sys) (by rfl) ?_ h
  intro acts a F F' _ ih hs
  rw [goes_snoc]
  rcases fault_step_cases hs with ⟨b, M, rfl, _, hb, rfl⟩ | ⟨r, ρ, rfl, _, _, _, rfl⟩ | ⟨r, i, t, rfl, _, _, _, rfl⟩ |
    ⟨r, i, t, res, rfl, _, _, _, rfl⟩
  · exact runs_snoc.2 ⟨F.sys, ih, hb⟩
  all_goals simpa [goes] using ih

/-- Moves that somebody is there to make. -/
theorem fault_go {F : Faulty} {a : SysAct} {M : Sys} (ha : F.allows a = true) (h : F.sys.step a = some M) :
    F.step (.go a) = some { F with sys := M } := by
  simp [Faulty.step, ha, h]

theorem fault_gos {F : Faulty} {more : List SysAct} {M : Sys} (ha : ∀ a ∈ more, F.allows a = true)
    (h : runs Sys.step F.sys more = some M) : runs Faulty.step F (more.map .go) = some { F with sys := M } := by
  induction more generalizing F with
  | nil => simp only [runs] at h; cases h; rfl
  | cons a more ih =>
    simp only [runs] at h
    cases hs : F.sys.step a with
    | none => simp [hs] at h
    | some M1 =>
      simp only [hs, Option.bind_some] at h
      simp only [List.map_cons, runs, fault_go (ha a (by simp)) hs, Option.bind_some]
      have := ih (F := { F with sys := M1 }) (fun b hb => ha b (List.mem_cons_of_mem _ hb)) h
      simpa using this

theorem fault_extend {acts : List FaultAct} {F : Faulty} (h : FaultReach acts F) {more : List SysAct} {M : Sys}
    (ha : ∀ a ∈ more, F.allows a = true) (hM : SysReach (goes acts ++ more) M) :
    FaultReach (acts ++ more.map .go) { F with sys := M } := by
  unfold FaultReach at h ⊢
  rw [runs_append, h]
  refine fault_gos ha ?_
  have h0 := fault_sys h
  unfold SysReach at h0 hM
  rw [runs_append, h0] at hM
  exact hM

/-- Once gone, dead or lost, always so. -/
theorem fault_mono {F F' : Faulty} {acts : List FaultAct} (h : runs Faulty.step F acts = some F') :
    (∀ r ∈ F.gone, r ∈ F'.gone) ∧ (∀ p ∈ F.dead, p ∈ F'.dead) ∧ ∀ p ∈ F.lost, p ∈ F'.lost := by
  refine runs_induct (P := fun _ F' => (∀ r ∈ F.gone, r ∈ F'.gone) ∧ (∀ p ∈ F.dead, p ∈ F'.dead) ∧ ∀ p ∈ F.lost, p ∈ F'.lost)
    ⟨fun _ h => h, fun _ h => h, fun _ h => h⟩ ?_ h
  intro acts a F F' _ ih hs
  rcases fault_step_cases hs with ⟨b, M, rfl, _, hb, rfl⟩ | ⟨r, ρ, rfl, _, _, _, rfl⟩ | ⟨r, i, t, rfl, _, _, _, rfl⟩ |
    ⟨r, i, t, res, rfl, _, _, _, rfl⟩ <;> grind

/-! ## Jobs can be brought to their end -/

theorem setTask_length {ρ ρ' : SysRun} {i : Nat} {t' : SysTask} (h : ρ'.tasks = ρ.tasks.set i t') (hi : i < ρ.tasks.length) :
    ρ'.tasks[i]? = some t' := by
  rw [h]; simp [hi]

/-- The moves of one job run do not announce anything for another. -/
theorem noOther_own {acts : List SysAct} {M M' : Sys} {r i : Nat} {b : TaskAct} {j : JobId} (h : SysReach acts M)
    (hs : M.step (.task r i b) = some M') (hno : NoOther M j r i) : NoOther M' j r i := by
  intro r' i' ha
  by_cases he : r' = r ∧ i' = i
  · exact he
  · exfalso
    refine he (hno r' i' ?_)
    obtain ⟨ρ', t', h1, h2, h3⟩ := announced_evs (runs_snoc.2 ⟨M, h, hs⟩) ha
    rcases sys_step_cases hs with ⟨wf, e, _⟩ | ⟨_, _, ρ₁, ρ₂, e, _⟩ |
      ⟨_, _, _, ρ₁, t, g', ρ₂, e, hρ, ht, hmm, rfl⟩ | ⟨n, e, _⟩ | ⟨j, x, e, _⟩
    all_goals cases e
    obtain ⟨u, hu, _⟩ := taskStep_trace hmm
    simp only [List.getElem?_set] at h1
    split at h1
    · rename_i hrr
      subst hrr
      split at h1
      · cases h1
        have hne : i ≠ i' := fun e => he ⟨rfl, e.symm⟩
        rw [hu, List.getElem?_set, if_neg hne] at h2
        exact announced_of h hρ h2 h3
      · cases h1
    · exact announced_of h h1 h2 h3

theorem job_can_finish (w : Nat × Nat × Nat × Nat × Nat) : ∀ {acts : List SysAct} {M : Sys}, SysReach acts M → HooksKeepJobs acts →
    ∀ {r i : Nat} {ρ : SysRun} {t : SysTask}, M.runs[r]? = some ρ → ρ.tasks[i]? = some t → wfMeasure (absRun weighed ρ []) = w →
    OwnSteps t.job → NoOther M t.job.id r i →
    ∃ more M' ρ' t' jr, (∀ a ∈ more, ownWork r i a) ∧ SysReach (acts ++ more) M' ∧ HooksKeepJobs (acts ++ more) ∧
      M'.runs[r]? = some ρ' ∧ ρ'.tasks[i]? = some t' ∧ t'.job = t.job ∧ t'.key = t.key ∧ SysTask.answer t' = some jr := by
  induction w using lexLt_wf.induction with
  | _ w ih =>
  intro acts M h hk r i ρ t hr ht hw ho hno
  cases hco : coopAct t with
  | none =>
    rcases coopAct_none hco with ⟨jr, hpc⟩ | ⟨s, hpc⟩
    · exact ⟨[], M, ρ, t, jr, by simp, by simpa using h, by simpa using hk, hr, ht, rfl, rfl, by simp [SysTask.answer, hpc]⟩
    · exact (C104_never_panics acts M h hk r i t (by simp [taskAt, hr, ht]) hno s hpc).elim
  | some a =>
    by_cases hsend : a = .send
    · have : ∃ jr, t.pc = .finished jr := by
        subst hsend
        unfold coopAct at hco
        cases hpc : t.pc with
        | finished r => exact ⟨_, rfl⟩
        | next => cases hrr : t.rest <;> simp [hpc, hrr] at hco
        | select s t0 d ref => cases hrr : (t.stream.poll 0).2 <;> simp [hpc, hrr] at hco
        | _ => simp [hpc] at hco
      obtain ⟨jr, hpc⟩ := this
      exact ⟨[], M, ρ, t, jr, by simp, by simpa using h, by simpa using hk, hr, ht, rfl, rfl, by simp [SysTask.answer, hpc]⟩
    · have hok := taskOk_reach h hr (List.mem_of_getElem? ht)
      obtain ⟨g', ρ1, hm, hlt⟩ := coop_move (g := M.mgr) (now := M.now) hok ht hco (fun e _ => absurd e hsend)
      have hs : M.step (.task r i a) = some { M with mgr := g', runs := M.runs.set r ρ1 } := by simp [Sys.step, hr, ht, hm]
      obtain ⟨t1, e1, e2, e3, _⟩ := taskStep_frame hm
      have hlen := (List.getElem?_eq_some_iff.1 hr).1
      have ht1 : ρ1.tasks[i]? = some t1 := setTask_length e1 (List.getElem?_eq_some_iff.1 ht).1
      have hst : ∀ b s, a = .nextStep b s → s.id.jobId = t.job.id := by
        rintro b s rfl
        unfold coopAct at hco
        cases hpc : t.pc with
        | next =>
          cases hrest : t.rest with
          | nil => simp [hpc, hrest] at hco
          | cons st rest =>
            simp only [hpc, hrest, Option.some.injEq, TaskAct.nextStep.injEq] at hco
            obtain ⟨_, rfl⟩ := hco
            have hp := hok.1
            unfold PcInv at hp
            rw [show (t.toJobM 0 none).pc = .next by simp [SysTask.toJobM, hpc, SysPc.toJobPc]] at hp
            obtain ⟨_, ps, _, hps, _⟩ := hp
            refine ho st ?_
            rw [← hps]
            exact List.mem_append_right _ (by simp [SysTask.toJobM, hrest])
        | select s t0 d ref => cases hx : (t.stream.poll 0).2 <;> simp [hpc, hx] at hco
        | _ => simp [hpc] at hco
      have hk1 : HooksKeepJobs (acts ++ [.task r i a]) := by
        refine hk.snoc h ?_
        intro r' i' b s he ρ₁ t₁ h1 h2
        cases he
        rw [hr] at h1
        cases h1
        rw [ht] at h2
        cases h2
        exact hst b s rfl
      obtain ⟨more, M', ρ', t', jr, q1, q2, q3, q4, q5, q6, q7, q8⟩ := ih _ (hw ▸ hlt) (runs_snoc.2 ⟨M, h, hs⟩) hk1 (r := r) (i := i)
        (by simp [hlen]) ht1 rfl (e3 ▸ ho) (e3 ▸ noOther_own h hs hno)
      refine ⟨.task r i a :: more, M', ρ', t', jr, ?_, by simpa using q2, by simpa using q3, q4, q5, q6.trans e3, q7.trans e2, q8⟩
      intro x hx
      rcases List.mem_cons.1 hx with rfl | hx
      · exact ⟨a, rfl, hsend⟩
      · exact q1 x hx

/-! ## What does not move any more -/

/-- A move of somebody else leaves a job task alone. -/
theorem taskAt_other {M M' : Sys} {a : SysAct} (hs : M.step a = some M') {r i : Nat} (ha : ∀ b, a ≠ .task r i b) {t : SysTask}
    (ht : taskAt M r i = some t) : taskAt M' r i = some t := by
  simp only [taskAt, Option.bind_eq_some_iff] at ht ⊢
  obtain ⟨ρ, hr, ht⟩ := ht
  have hlen := (List.getElem?_eq_some_iff.1 hr).1
  rcases sys_step_cases hs with ⟨wf, rfl, rfl⟩ | ⟨n, b, ρ₁, ρ₂, rfl, hρ, hmm, rfl⟩ |
    ⟨n, k, b, ρ₁, t₁, g', ρ₂, rfl, hρ, ht₁, hmm, rfl⟩ | ⟨n, rfl, rfl⟩ | ⟨j, x, rfl, rfl⟩
  · exact ⟨ρ, by simp [List.getElem?_append_left hlen, hr], ht⟩
  · by_cases hn : n = r
    · subst hn
      rw [hr] at hρ
      cases hρ
      obtain ⟨es, hes⟩ := main_fresh hmm
      refine ⟨ρ₂, by simp [hlen], ?_⟩
      rw [hes, List.getElem?_append_left (List.getElem?_eq_some_iff.1 ht).1]
      exact ht
    · exact ⟨ρ, by simp [hn, hr], ht⟩
  · by_cases hn : n = r
    · subst hn
      rw [hr] at hρ
      cases hρ
      obtain ⟨u, hu, _⟩ := taskStep_frame hmm
      have hk : k ≠ i := fun e => ha b (by rw [e])
      refine ⟨ρ₂, by simp [hlen], ?_⟩
      rw [hu, List.getElem?_set, if_neg hk]
      exact ht
    · exact ⟨ρ, by simp [hn, hr], ht⟩
  · exact ⟨ρ, hr, ht⟩
  · exact ⟨ρ, hr, ht⟩

/-- The job task stands where it stood. -/
structure SameSpot (t t' : SysTask) : Prop where
  key : t'.key = t.key
  job : t'.job = t.job
  pc : t'.pc = t.pc
  evs : t'.evs = t.evs
  results : t'.results = t.results

theorem SameSpot.refl (t : SysTask) : SameSpot t t := ⟨rfl, rfl, rfl, rfl, rfl⟩

theorem SameSpot.trans {t t' t'' : SysTask} (h : SameSpot t t') (h' : SameSpot t' t'') : SameSpot t t'' :=
  ⟨h'.key.trans h.key, h'.job.trans h.job, h'.pc.trans h.pc, h'.evs.trans h.evs, h'.results.trans h.results⟩

/-- The runner's moves do not move the job's task. -/
theorem runner_spot {M M' : Sys} {r i : Nat} {b : TaskAct} (hb : b.ofRunner = true) (hs : M.step (.task r i b) = some M') {t : SysTask}
    (ht : taskAt M r i = some t) : ∃ t', taskAt M' r i = some t' ∧ SameSpot t t' := by
  simp only [taskAt, Option.bind_eq_some_iff] at ht ⊢
  obtain ⟨ρ, hr, ht⟩ := ht
  have hlen := (List.getElem?_eq_some_iff.1 hr).1
  have hlen' := (List.getElem?_eq_some_iff.1 ht).1
  cases b <;> simp only [TaskAct.ofRunner, Bool.false_eq_true] at hb
  all_goals
    simp only [Sys.step, hr, ht, Option.bind_eq_bind, Option.bind_some, Sys.taskStep, SysTask.step] at hs
    split at hs
    · simp only [Option.map_some, Option.bind_some, Option.pure_def, Option.some.injEq] at hs
      subst hs
      have key : ∀ t1 : SysTask, SameSpot t t1 → ∃ t', (∃ ρ', (M.runs.set r (ρ.setTask i t1))[r]? = some ρ' ∧ ρ'.tasks[i]? = some t') ∧
          SameSpot t t' := fun t1 h1 => ⟨t1, ⟨ρ.setTask i t1, by simp [hlen], by simp [SysRun.setTask, hlen']⟩, h1⟩
      exact key _ ⟨rfl, rfl, rfl, rfl, rfl⟩
    · simp at hs

/-- A job task that panicked stays where it is. -/
theorem dead_step {F F' : Faulty} {a : FaultAct} (hs : F.step a = some F') {r i : Nat} (hd : (r, i) ∈ F.dead) {t : SysTask}
    (ht : taskAt F.sys r i = some t) : ∃ t', taskAt F'.sys r i = some t' ∧ SameSpot t t' := by
  rcases fault_step_cases hs with ⟨b, M, rfl, hal, hb, rfl⟩ | ⟨r, ρ, rfl, _, _, _, rfl⟩ | ⟨r, i, t, rfl, _, _, _, rfl⟩ |
    ⟨r, i, t, res, rfl, _, _, _, rfl⟩
  · by_cases h : ∃ c, b = .task r i c
    · obtain ⟨c, rfl⟩ := h
      refine runner_spot ?_ hb ht
      simp only [Faulty.allows, Bool.or_eq_true, Bool.and_eq_true, Bool.not_eq_true'] at hal
      rcases hal with h | ⟨h, _⟩
      · exact h
      · have := List.contains_iff_mem.2 hd
        rw [this] at h
        cases h
    · exact ⟨t, taskAt_other hb (fun c e => h ⟨c, e⟩) ht, .refl t⟩
  all_goals exact ⟨_, ht, .refl _⟩

theorem dead_stays {F F' : Faulty} {more : List FaultAct} (h : runs Faulty.step F more = some F') {r i : Nat} (hd : (r, i) ∈ F.dead)
    {t : SysTask} (ht : taskAt F.sys r i = some t) : ∃ t', taskAt F'.sys r i = some t' ∧ SameSpot t t' := by
  refine runs_induct (P := fun _ F' => ∃ t', taskAt F'.sys r i = some t' ∧ SameSpot t t') ⟨t, ht, .refl t⟩ ?_ h
  rintro acts a F1 F2 hr ⟨t', h1, h2⟩ hs
  obtain ⟨t'', h3, h4⟩ := dead_step hs ((fault_mono hr).2.1 _ hd) h1
  exact ⟨t'', h3, h2.trans h4⟩

/-- A dead job task was still running its job. -/
theorem dead_inv {acts : List FaultAct} {F : Faulty} (h : FaultReach acts F) :
    ∀ r i, (r, i) ∈ F.dead → ∃ t, taskAt F.sys r i = some t ∧ t.pc.callsUsers = true := by
  refine runs_induct (P := fun _ (F : Faulty) => ∀ r i, (r, i) ∈ F.dead → ∃ t, taskAt F.sys r i = some t ∧ t.pc.callsUsers = true)
    (by intro r i h; cases h) ?_ h
  intro acts a F F' _ ih hs r i hd
  by_cases hd0 : (r, i) ∈ F.dead
  · obtain ⟨t, h1, h2⟩ := ih r i hd0
    obtain ⟨t', h3, h4⟩ := dead_step hs hd0 h1
    exact ⟨t', h3, by rw [h4.pc]; exact h2⟩
  · rcases fault_step_cases hs with ⟨b, M, rfl, hal, hb, rfl⟩ | ⟨r, ρ, rfl, _, _, _, rfl⟩ | ⟨r, i, t, rfl, h1, _, h2, rfl⟩ |
      ⟨r, i, t, res, rfl, _, _, _, rfl⟩
    · exact absurd hd hd0
    · exact absurd hd hd0
    · rcases List.mem_cons.1 hd with e | hd
      · cases e; exact ⟨t, h1, h2⟩
      · exact absurd hd hd0
    · exact absurd hd hd0

/-- The main task stands where it stood. -/
structure SameMain (ρ ρ' : SysRun) : Prop where
  wf : ρ'.wf = ρ.wf
  pc : ρ'.pc = ρ.pc
  events : mainEvents ρ'.trace = mainEvents ρ.trace
  jobs : ρ'.tasks.map (fun t => (t.key, t.job)) = ρ.tasks.map (fun t => (t.key, t.job))
  received : ρ'.received = ρ.received

theorem SameMain.refl (ρ : SysRun) : SameMain ρ ρ := ⟨rfl, rfl, rfl, rfl, rfl⟩

theorem SameMain.trans {a b c : SysRun} (h : SameMain a b) (h' : SameMain b c) : SameMain a c :=
  ⟨h'.wf.trans h.wf, h'.pc.trans h.pc, h'.events.trans h.events, h'.jobs.trans h.jobs, h'.received.trans h.received⟩

theorem task_sameMain {g g' : SigMgr} {ρ ρ' : SysRun} {now : Time} {i : Nat} {t : SysTask} {a : TaskAct} (ht : ρ.tasks[i]? = some t)
    (h : Sys.taskStep g ρ now i t a = some (g', ρ')) : SameMain ρ ρ' := by
  obtain ⟨t', e1, e2, e3, ⟨e4, _⟩, e5, _, _, e6, _⟩ := taskStep_frame h
  obtain ⟨_, _, htr⟩ := taskStep_trace h
  refine ⟨e4, e5, ?_, ?_, e6⟩
  · rcases htr with ⟨h, _⟩ | ⟨e, h, _⟩ <;> simp [h, mainEvents]
  · rw [e1]
    exact map_set_same ht (by simp [e2, e3])

/-- A run that was given up stays where it is. -/
theorem gone_step {F F' : Faulty} {a : FaultAct} (hs : F.step a = some F') {r : Nat} (hg : r ∈ F.gone) {ρ : SysRun}
    (hr : F.sys.runs[r]? = some ρ) : ∃ ρ', F'.sys.runs[r]? = some ρ' ∧ SameMain ρ ρ' := by
  have hlen := (List.getElem?_eq_some_iff.1 hr).1
  rcases fault_step_cases hs with ⟨b, M, rfl, hal, hb, rfl⟩ | ⟨r, ρ, rfl, _, _, _, rfl⟩ | ⟨r, i, t, rfl, _, _, _, rfl⟩ |
    ⟨r, i, t, res, rfl, _, _, _, rfl⟩
  · rcases sys_step_cases hb with ⟨wf, rfl, rfl⟩ | ⟨n, b, ρ₁, ρ₂, rfl, hρ, hmm, rfl⟩ |
      ⟨n, k, b, ρ₁, t₁, g', ρ₂, rfl, hρ, ht₁, hmm, rfl⟩ | ⟨n, rfl, rfl⟩ | ⟨j, x, rfl, rfl⟩
    · exact ⟨ρ, by simp [List.getElem?_append_left hlen, hr], .refl ρ⟩
    · have hn : n ≠ r := by
        rintro rfl
        simp [Faulty.allows, hg] at hal
      exact ⟨ρ, by simp [hn, hr], .refl ρ⟩
    · by_cases hn : n = r
      · subst hn
        rw [hr] at hρ
        cases hρ
        exact ⟨ρ₂, by simp [hlen], task_sameMain ht₁ hmm⟩
      · exact ⟨ρ, by simp [hn, hr], .refl ρ⟩
    · exact ⟨ρ, hr, .refl ρ⟩
    · exact ⟨ρ, hr, .refl ρ⟩
  all_goals exact ⟨_, hr, .refl _⟩

theorem gone_stays {F F' : Faulty} {more : List FaultAct} (h : runs Faulty.step F more = some F') {r : Nat} (hg : r ∈ F.gone)
    {ρ : SysRun} (hr : F.sys.runs[r]? = some ρ) : ∃ ρ', F'.sys.runs[r]? = some ρ' ∧ SameMain ρ ρ' := by
  refine runs_induct (P := fun _ F' => ∃ ρ', F'.sys.runs[r]? = some ρ' ∧ SameMain ρ ρ') ⟨ρ, hr, .refl ρ⟩ ?_ h
  rintro acts a F1 F2 hrr ⟨ρ', h1, h2⟩ hs
  obtain ⟨ρ'', h3, h4⟩ := gone_step hs ((fault_mono hrr).1 _ hg) h1
  exact ⟨ρ'', h3, h2.trans h4⟩

/-! ## What went wrong is in the schedule -/

theorem crashed_iff {acts : List FaultAct} {F : Faulty} (h : FaultReach acts F) (r i : Nat) : (r, i) ∈ F.dead ↔ .crash r i ∈ acts := by
  refine runs_induct (P := fun acts (F : Faulty) => ((r, i) ∈ F.dead ↔ .crash r i ∈ acts)) (by simp) ?_ h
  intro acts a F F' _ ih hs
  rcases fault_step_cases hs with ⟨b, M, rfl, _, hb, rfl⟩ | ⟨r, ρ, rfl, _, _, _, rfl⟩ | ⟨r, i, t, rfl, _, _, _, rfl⟩ |
    ⟨r, i, t, res, rfl, _, _, _, rfl⟩ <;> simp [ih]
  grind

theorem dropped_iff {acts : List FaultAct} {F : Faulty} (h : FaultReach acts F) (r : Nat) : r ∈ F.gone ↔ .drop r ∈ acts := by
  refine runs_induct (P := fun acts (F : Faulty) => (r ∈ F.gone ↔ .drop r ∈ acts)) (by simp) ?_ h
  intro acts a F F' _ ih hs
  rcases fault_step_cases hs with ⟨b, M, rfl, _, hb, rfl⟩ | ⟨r, ρ, rfl, _, _, _, rfl⟩ | ⟨r, i, t, rfl, _, _, _, rfl⟩ |
    ⟨r, i, t, res, rfl, _, _, _, rfl⟩ <;> simp [ih]
  grind

/-- Work of a job that did not panic, up to its answer, is possible even if the run is gone. -/
theorem allows_own {F : Faulty} {r i : Nat} (hd : (r, i) ∉ F.dead) {a : SysAct} (ha : ownWork r i a) : F.allows a = true := by
  obtain ⟨b, rfl, hb⟩ := ha
  simp [Faulty.allows, hd, hb]

/-- Every move of an intact run is possible. -/
theorem allows_run {F : Faulty} {r : Nat} (hg : r ∉ F.gone) (hd : ∀ i, (r, i) ∉ F.dead) {a : SysAct} (ha : ofRun r a) :
    F.allows a = true := by
  cases a with
  | main r' b => simp only [ofRun] at ha; subst ha; simp [Faulty.allows, hg]
  | task r' i b => simp only [ofRun] at ha; subst ha; simp [Faulty.allows, hg, hd]
  | _ => rfl

/-- A run that returned without being skipped, or a run that was skipped and has no jobs. -/
theorem skipped_no_tasks {acts : List SysAct} {M : Sys} (h : SysReach acts M) {r : Nat} {ρ : SysRun} (hr : M.runs[r]? = some ρ)
    {res : WorkflowRunResult} (hp : ρ.pc = .returned res) (hs : res.state = .skipped) : ρ.tasks = [] := by
  have := run_always (P := fun ρ => ρ.state ≠ .skipped ∧ (ρ.pc = .init → ρ.tasks = []) ∧
    (∀ res, ρ.pc = .completing res → res.state ≠ .skipped) ∧ ∀ res, ρ.pc = .returned res → res.state = .skipped → ρ.tasks = [])
    (by intro wf; simp) ?_ ?_ h r ρ hr
  · exact this.2.2.2 res hp hs
  · rintro now ρ a ρ' ⟨h1, h2, h3, h4⟩ hm
    have hfold : ∀ (l : List (Id × Job)) (ρ : SysRun), (l.foldl SysRun.runJob ρ).state = ρ.state ∧ (l.foldl SysRun.runJob ρ).pc = ρ.pc := by
      intro l
      induction l with
      | nil => intro ρ; exact ⟨rfl, rfl⟩
      | cons e l ih => intro ρ; simp [ih, SysRun.runJob]
    cases a <;> simp only [SysRun.main] at hm
    case check b =>
      split at hm
      · rename_i hi
        split at hm <;> cases hm
        · exact ⟨h1, by simp, by simp, fun _ _ _ => h2 hi⟩
        · exact ⟨by simp, by simp, by simp, by simp⟩
      · cases hm
    case spawn =>
      split at hm
      · cases hm; exact ⟨h1, by simp, by simp, by simp⟩
      · cases hm
        refine ⟨?_, by simp, by simp, by simp⟩
        unfold SysRun.setupJob
        split
        · exact h1
        · simp only
          split <;> simp [h1]
      · cases hm
    case recv =>
      split at hm
      · cases hm
        simp only [SysRun.handle]
        have hb : ∀ msg, nextWfState ρ.state msg ≠ .skipped := nextWfState_ne h1
        rename_i hpc _
        split
        · refine ⟨?_, by simp, by simp, by simp⟩
          simp only
          split
          · simp
          · exact hb _
        · unfold SysRun.rescan
          refine ⟨by rw [(hfold _ _).1]; exact hb _, ?_, ?_, ?_⟩ <;> simp [(hfold _ _).2, SysRun.book, hpc]
      · cases hm
    case announce =>
      split at hm
      · cases hm; exact ⟨h1, by simp, by simpa using h1, by simp⟩
      · cases hm
    case complete =>
      split at hm
      · rename_i res hpc
        cases hm
        refine ⟨h1, by simp, by simp, ?_⟩
        intro res' he hs
        cases he
        exact absurd hs (h3 _ hpc)
      · cases hm
  · rintro g g' now ρ ρ' i t a ⟨h1, h2, h3, h4⟩ ht hm
    obtain ⟨t', e1, _, _, ⟨_, e4⟩, e5, _⟩ := taskStep_frame hm
    have hne : ρ.tasks ≠ [] := by rintro e; simp [e] at ht
    rw [e4, e5]
    exact ⟨h1, fun hx => absurd (h2 hx) hne, h3, fun res hx hs => absurd (h4 res hx hs) hne⟩

/-- The sender of a message did not panic. -/
theorem sender_alive {acts : List FaultAct} {F : Faulty} (h : FaultReach acts F) {r : Nat} {ρ : SysRun} (hr : F.sys.runs[r]? = some ρ)
    {msg : WfMsg} (hm : MsgFrom ρ msg) : .crash r msg.sender ∉ acts := by
  intro hc
  obtain ⟨t, h1, h2⟩ := dead_inv h r msg.sender ((crashed_iff h _ _).2 hc)
  obtain ⟨u, h3, _, h4⟩ := hm
  simp only [taskAt, hr, Option.bind_some, h3, Option.some.injEq] at h1
  subst h1
  simp [h4, SysPc.callsUsers] at h2

end AstroRun
