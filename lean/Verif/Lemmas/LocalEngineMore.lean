import Verif.Lemmas.LocalEngine
import Verif.Props.SystemLive
import Verif.Props.SystemCancel

/-! # Lemmas: an engine on the local runner, as a whole -/

namespace AstroRun
open Spec

theorem answer_idle {t : SysTask} {jr : JobRunResult} (h : SysTask.answer t = some jr) : stepOf t.pc = none ∧ t.pc.pend = [] := by
  unfold SysTask.answer at h
  split at h
  · rename_i hpc; rw [hpc]; exact ⟨rfl, rfl⟩
  · rename_i hpc; rw [hpc]; exact ⟨rfl, rfl⟩
  · cases h

theorem EndedAll.same {cfg : LocalSetup} {H : List (Command × List Log)} {D : List (RunPlan × LocalRun)} {R : List StepRunResult}
    (h : EndedAll cfg H D R)
    (hr : ∀ (n : Nat) (p : RunPlan) (l : LocalRun), D[n]? = some (p, l) → ∃ la, LocalReach p cfg.plugins.length la l) :
    SameSteps cfg H D R := by
  refine ⟨h.reported, h.results, fun n hh p l res h1 h2 h3 => ?_⟩
  obtain ⟨st, x, r, a1, a2, a3, a4, a5, a6⟩ := h.each n p l h2
  obtain ⟨la, hla⟩ := hr n p l h2
  rw [a1] at h1
  rw [a2] at h3
  cases h1
  cases h3
  obtain ⟨b1, b2, b3⟩ := C63_result_partial p _ la l hla x a4
  exact ⟨st, rfl, a3, a5, b1 ▸ a6, b2, b3⟩

/-- A job task that has its answer. -/
theorem job_done {setup : EngineSetup} {acts : List EngineAct} {E : LocalEngine} (h : EngineReach setup acts E) {r i : Nat}
    {ρ : SysRun} (hρ : E.sys.runs[r]? = some ρ) {t : SysTask} (ht : ρ.tasks[i]? = some t) {jr : JobRunResult}
    (ha : SysTask.answer t = some jr) :
    SameSteps (forRun setup r) (handedOver (eventsOf i ρ.trace)) (E.tasks r i) (executedSteps jr.steps) := by
  have hi := engineInv_reach h
  obtain ⟨sa, hsa, _⟩ := hi.sys
  have hT : taskAt E.sys r i = some t := by simp [taskAt, hρ, ht]
  have hp := hi.pairs r i
  rw [hT] at hp
  have hp : PairInv (forRun setup r) t (E.tasks r i) := hp
  obtain ⟨h0, h1⟩ := answer_idle ha
  have he := hp.idle h0
  rw [h1, List.append_nil] at he
  have hev : eventsOf i ρ.trace = t.evs := by rw [(runLife_reach hsa hρ).events i, ht]; rfl
  rw [hev, answer_steps hsa hT ha]
  exact he.same hp.reach

/-- Notifications later than the last hand-over. -/
theorem handedOver_shrink {xs es : List Event} (h : ∀ c, Event.runnerRun c ∉ es) {H : List (Command × List Log)} {c : Command}
    {ls : List Log} (he : handedOver (xs ++ es) = H ++ [(c, ls)]) : ∃ ls', handedOver xs = H ++ [(c, ls')] ∧ ls' <+: ls := by
  induction es using List.reverseRecOn generalizing ls with
  | nil => exact ⟨ls, by simpa using he, List.prefix_refl _⟩
  | append_singleton es e ih =>
    rw [← List.append_assoc, handedOver_append] at he
    have hes : ∀ c, Event.runnerRun c ∉ es := fun c hc => h c (by simp [hc])
    have hcase : handedOver (xs ++ es) = H ++ [(c, ls)] ∨ ∃ x ls0, ls = ls0 ++ [x] ∧ handedOver (xs ++ es) = H ++ [(c, ls0)] := by
      cases e with
      | runnerRun d => exact absurd (by simp) (h d)
      | log id x =>
        right
        rcases List.eq_nil_or_concat (handedOver (xs ++ es)) with e0 | ⟨A, y, e0⟩
        · rw [e0] at he; simp [noteHandedOver] at he
        · rw [List.concat_eq_append] at e0
          rw [e0] at he
          simp only [noteHandedOver] at he
          rw [modify_concat] at he
          obtain ⟨rfl, e2⟩ := List.append_inj' he rfl
          simp only [List.cons.injEq, Prod.mk.injEq, and_true] at e2
          exact ⟨x, y.2, e2.2.symm, by rw [e0, ← e2.1]⟩
      | _ => exact .inl he
    rcases hcase with hc | ⟨x, ls0, rfl, hc⟩
    · exact ih hes hc
    · obtain ⟨ls', k1, k2⟩ := ih hes hc
      exact ⟨ls', k1, k2.trans (List.prefix_append _ _)⟩

theorem job_busy {setup : EngineSetup} {acts : List EngineAct} {E : LocalEngine} (h : EngineReach setup acts E) {r i n : Nat}
    {ρ : SysRun} (hρ : E.sys.runs[r]? = some ρ) {st : Step} (hb : Busy E r i n st) :
    ∃ p l logs, (E.tasks r i)[n]? = some (p, l) ∧ PlanFor (forRun setup r) st p ∧
      (handedOver (eventsOf i ρ.trace))[n]? = some (st.toCommand, logs) ∧
      (handedOver (eventsOf i ρ.trace)).length = n + 1 ∧ logs <+: l.stream.logs := by
  obtain ⟨t, hT, hr, hst, hn⟩ := hb
  have hi := engineInv_reach h
  obtain ⟨sa, hsa, _⟩ := hi.sys
  have hp := hi.pairs r i
  rw [hT] at hp
  have hp : PairInv (forRun setup r) t (E.tasks r i) := hp
  obtain ⟨st', D, p, l, H, a1, a2, a3, a4, a5, a6, a7, a8, a9⟩ := hp.link hr
  rw [hst] at a1
  cases a1
  obtain ⟨ρ', hρ', ht⟩ := taskAt_some hT
  rw [hρ] at hρ'
  cases hρ'
  have hev : eventsOf i ρ.trace = t.evs := by rw [(runLife_reach hsa hρ).events i, ht]; rfl
  have hpend : ∀ c, Event.runnerRun c ∉ t.pc.pend := by
    intro c hc
    have h5 := hr
    unfold SysPc.reading at h5
    split at h5
    · rename_i hpc; rw [hpc] at hc; simp [SysPc.pend] at hc
    · rename_i hpc; rw [hpc] at hc; simp [SysPc.pend] at hc
    · rename_i hpc; rw [hpc] at hc; exact (hp.form _ _ hpc).2 c (by simpa [SysPc.pend] using hc)
    · cases h5
  obtain ⟨ls', k1, k2⟩ := handedOver_shrink hpend a8
  have hlen : n = D.length := by
    have := hn
    rw [a2] at this
    simpa using this
  have hH : H.length = n := by rw [a9.reported, hlen]
  refine ⟨p, l, ls', ?_, a3, ?_, ?_, ?_⟩
  · rw [a2, hlen]; simp
  · rw [hev, k1, ← hH]; simp
  · rw [hev, k1]; simp [hH]
  · rw [a4]; exact k2.trans (List.take_prefix _ _)

/-! ## Hypotheses about schedules -/

theorem started_filter (sa : List SysAct) : started (sa.filter fun a => !a.byRunner) = started sa := by
  induction sa with
  | nil => rfl
  | cons a sa ih =>
    cases hb : a.byRunner
    · simp only [List.filter_cons, hb, Bool.not_false, if_true]
      simp only [started, List.filterMap_cons] at ih ⊢
      split <;> simp_all
    · simp only [List.filter_cons, hb, Bool.not_true, Bool.false_eq_true, if_false, ih]
      cases a with
      | task r i b => rfl
      | _ => simp [SysAct.byRunner] at hb

theorem apart_filter {sa : List SysAct} (h : Apart (sa.filter fun a => !a.byRunner)) : Apart sa := by
  have e := started_filter sa
  refine ⟨e ▸ h.distinct, fun wf hwf => h.own wf (e ▸ hwf), fun r i b s hm wf hwf => h.hooks r i b s ?_ wf (e ▸ hwf)⟩
  simp [List.mem_filter, hm, SysAct.byRunner]

theorem keepJobs_runner {sa more : List SysAct} (h : HooksKeepJobs sa) (hb : ∀ b ∈ more, b.byRunner = true) {M M' : Sys} (hM : SysReach sa M)
    (hm : runs Sys.step M more = some M') : HooksKeepJobs (sa ++ more) := by
  induction more generalizing sa M with
  | nil => simpa using h
  | cons a more ih =>
    simp only [runs] at hm
    cases hs : M.step a with
    | none => rw [hs] at hm; simp at hm
    | some M1 =>
      rw [hs] at hm
      have e : sa ++ a :: more = (sa ++ [a]) ++ more := by simp
      rw [e]
      refine ih (h.snoc hM ?_) (fun b h => hb b (by simp [h])) (M := M1) ?_ hm
      · intro r i b s e2
        have := hb a (by simp)
        rw [e2] at this
        cases this
      · exact runs_snoc.2 ⟨M, hM, hs⟩

theorem engine_sys {setup : EngineSetup} {acts : List EngineAct} {E : LocalEngine} (h : EngineReach setup acts E) :
    EngineHooksKeepJobs setup acts →
    ∃ sa, SysReach sa E.sys ∧ sa.filter (fun a => !a.byRunner) = engineMoves acts ∧ HooksKeepJobs sa := by
  refine runs_induct (P := fun acts E => EngineHooksKeepJobs setup acts →
    ∃ sa, SysReach sa E.sys ∧ sa.filter (fun a => !a.byRunner) = engineMoves acts ∧ HooksKeepJobs sa) ?_ ?_ h
  · intro _
    exact ⟨[], rfl, rfl, fun pre r i b s post he => by simp at he⟩
  · intro acts a E E' hr ih hs hk
    obtain ⟨sa0, k1, k2, k3⟩ := ih (fun pre r i b s post e => hk pre r i b s (post ++ [a]) (by rw [e]; simp))
    obtain ⟨_, ⟨sa, h2, h3⟩, _⟩ := engine_move hs
    refine ⟨sa0 ++ sa, ?_, ?_, ?_⟩
    · unfold SysReach at k1 ⊢
      rw [runs_append, k1]
      exact h3
    · rw [List.filter_append, k2, hidden_filter h2, engineMoves_snoc]
    · cases a with
      | sys b =>
        obtain ⟨hb, rfl⟩ := h2
        refine k3.snoc k1 ?_
        rintro r i b s rfl ρ t q1 q2
        exact hk acts r i b s [] rfl E hr t (by simp [taskAt, q1, q2])
      | spawned r i past envs => exact keepJobs_runner k3 h2 k1 h3
      | loc r i n b => exact keepJobs_runner k3 h2 k1 h3

/-- In workflows whose jobs all have the id the steps are made to carry, the hooks keep the jobs. -/
theorem engineHooks_of {setup : EngineSetup} {acts : List EngineAct} (ha : Apart (engineMoves acts))
    (h : ∀ r i b s, SysAct.task r i (.nextStep b s) ∈ engineMoves acts → ∀ wf, (started (engineMoves acts))[r]? = some wf →
      ∀ k j, (k, j) ∈ wf.jobs → s.id.jobId = j.id) : EngineHooksKeepJobs setup acts := by
  rintro pre r i b s post rfl E hE t hT
  obtain ⟨ρ, h1, h2⟩ := taskAt_some hT
  obtain ⟨sa, hsa, hf⟩ := (engineInv_reach hE).sys
  have hm : engineMoves (pre ++ EngineAct.sys (.task r i (.nextStep b s)) :: post) =
      engineMoves pre ++ SysAct.task r i (.nextStep b s) :: engineMoves post := by
    simp [engineMoves, List.filterMap_append, List.filterMap_cons]
  rw [hm] at ha h
  have inv := engineOk_reach (apart_filter (hf ▸ ha.prefix)) hsa
  have hwf : (started (engineMoves pre))[r]? = some ρ.wf := by
    rw [← hf, started_filter, ← inv.wfs]; simp [h1]
  refine h r i b s (by simp) ρ.wf ?_ t.key t.job ((inv.runs r ρ h1).tasks i t h2).2.1
  unfold started at hwf ⊢
  rw [List.filterMap_append, List.getElem?_append_left (List.getElem?_eq_some_iff.1 hwf).1]
  exact hwf

/-! ## Everything is waiting -/

theorem runner_task_stuck {E : LocalEngine} {r i n : Nat} {p : RunPlan} {l : LocalRun} (hs : RunStuck E r) (hg : (E.tasks r i)[n]? = some (p, l)) :
    TaskStuck l := by
  intro a ho hf
  have := hs.tasks i n a ho hf
  simp only [LocalEngine.step, hg] at this
  cases hl : l.step a with
  | none => rfl
  | some l' =>
    cases a <;> simp_all [LocalAct.own]

theorem stuck_runs {setup : EngineSetup} {acts : List EngineAct} {E : LocalEngine} (h : EngineReach setup acts E) {r : Nat}
    (hs : RunStuck E r) (hover : ∀ i p l, (p, l) ∈ E.tasks r i → ProcessOver l) :
    ∀ a, ofRun r a → E.sys.step a = none := by
  have hi := engineInv_reach h
  have hown : ∀ a, ofRun r a → a.byRunner = false → E.sys.step a = none := by
    intro a ha hb
    have := hs.engine a ha
    simpa [LocalEngine.step, hb] using this
  -- no job task is executing a step
  have hidle : ∀ i t, taskAt E.sys r i = some t → stepOf t.pc = none := by
    intro i t hT
    obtain ⟨ρ, hρ, ht⟩ := taskAt_some hT
    cases hst : stepOf t.pc with
    | none => rfl
    | some st =>
      exfalso
      rcases stepOf_cases hst with hrd | ⟨t0, ref, hpc⟩
      · have hp := hi.pairs r i
        rw [hT] at hp
        have hp : PairInv (forRun setup r) t (E.tasks r i) := hp
        obtain ⟨st', D, p, l, H, a1, a2, a3, a4, a5, a6, a7, a8, a9⟩ := hp.link hrd
        have hg : (E.tasks r i)[D.length]? = some (p, l) := by rw [a2]; simp
        obtain ⟨la, hla⟩ := hp.reach _ p l hg
        obtain ⟨x, hx⟩ := C63_ends p _ la l hla (runner_task_stuck hs hg) (hover i p l (List.mem_of_getElem? hg))
        have htx : t.stream.result = some x := by rw [← a5, hx]
        have hrecv := hown (.task r i .recv) rfl rfl
        have hemit := hown (.task r i .emit) rfl rfl
        have hent := hown (.task r i .enter) rfl rfl
        simp [Sys.step, hρ, ht, Sys.taskStep, SysTask.step] at hrecv hemit hent
        unfold SysPc.reading at hrd
        split at hrd
        · rename_i hpc; simp [hpc] at hent
        · rename_i hpc
          simp only [hpc] at hrecv
          cases hq : t.stream.poll 0 with
          | mk st1 o =>
            rw [hq] at hrecv
            cases o with
            | item y => simp at hrecv
            | eos => simp [htx] at hrecv
            | pending =>
              have : (t.stream.poll 0).2 = .pending := by rw [hq]
              unfold StreamState.poll at this
              simp [htx] at this
              split at this <;> simp at this
        · rename_i hpc
          obtain ⟨es, k, hpc⟩ : ∃ es k, t.pc = .emitting es k := ⟨_, _, hpc⟩
          cases es <;> simp [hpc] at hemit
        · cases hrd
      · have := hs.runner i (fun _ => []) []
        simp [LocalEngine.step, jobTask_eq, hT, hpc, Sys.step, hρ, ht, Sys.taskStep, SysTask.step] at this
  intro a ha
  cases hb : a.byRunner with
  | false => exact hown a ha hb
  | true =>
    cases a with
    | task r' i b =>
      have : r' = r := ha
      subst this
      cases hst : E.sys.step (.task r' i b) with
      | none => rfl
      | some M' =>
        exfalso
        rcases sys_step_cases hst with ⟨wf, h1, _⟩ | ⟨n, b', ρ₁, ρ₂, h1, _⟩ |
          ⟨n, j, b', ρ, t, g', ρ', h1, hρ, htt, hmm, _⟩ | ⟨n, h1, _⟩ | ⟨j, x, h1, _⟩
        all_goals cases h1
        have hid := hidle i t (by simp [taskAt, hρ, htt])
        have hact : t.pc.runnerActive = true → stepOf t.pc ≠ none := by
          unfold SysPc.runnerActive
          split <;> simp_all [stepOf]
        cases b <;> simp [SysAct.byRunner] at hb
        · simp only [Sys.taskStep, SysTask.step] at hmm
          split at hmm
          · rename_i hpc; rw [hpc] at hid; cases hid
          · simp at hmm
        · simp only [Sys.taskStep, SysTask.step] at hmm
          split at hmm
          · rename_i hpc; rw [hpc] at hid; cases hid
          · simp at hmm
        · simp only [Sys.taskStep, SysTask.step] at hmm
          split at hmm
          · rename_i hpc; exact hact hpc hid
          · simp at hmm
        · simp only [Sys.taskStep, SysTask.step] at hmm
          split at hmm
          · rename_i hpc; exact hact hpc hid
          · simp at hmm
    | _ => simp [SysAct.byRunner] at hb

/-! ## Results and processes -/

/-- Of a task that has written its result, the process is accounted for, if it ran in a container. -/
theorem accounted {p : RunPlan} {k : Nat} {la : List LocalAct} {l : LocalRun} (h : LocalReach p k la l) (hk : p.kind = .docker)
    {x : RunResult} (hx : l.stream.result = some x) : Accounted p l := by
  obtain ⟨b1, b2, b3⟩ := C63_result_partial p k la l h x hx
  cases he : l.exitSeen with
  | some c =>
    obtain ⟨ch, q1, q2⟩ := b2 c he
    exact .inr (.inl ⟨ch, c, q1, q2⟩)
  | none =>
    cases hv : l.sigSeen with
    | some v => exact .inr (.inr (.inl (C71_docker_killed_partial p k la l h hk (by simp [hx]) he (by simp [hv]))))
    | none =>
      refine .inr (.inr (.inr ⟨he, hv, ?_⟩))
      rw [hx, b1, he, hv]
      rfl

/-- The task of a job whose result is in the result of the workflow. -/
theorem result_task {acts : List SysAct} {M : Sys} (h : SysReach acts M) {r : Nat} {ρ : SysRun} (hr : M.runs[r]? = some ρ)
    {res : WorkflowRunResult} (hp : ρ.pc = .returned res) {k : Id} {jr : JobRunResult} (hk : (k, jr) ∈ res.jobs) :
    ∃ (i : Nat) (t : SysTask), ρ.tasks[i]? = some t ∧ t.key = k ∧ SysTask.answer t = some jr := by
  have ht := runTimes_reach h r ρ hr
  obtain ⟨msg, m1, m2, m3⟩ := ht.results k jr ((ht.done res (.inr hp)).2.2 k jr hk)
  obtain ⟨t, t1, t2, t3⟩ := ht.msgs msg (by simp [m1])
  exact ⟨msg.sender, t, t1, t2.trans m2, by simp [SysTask.answer, t3, m3]⟩

/-! ## Why a step was cancelled -/

theorem answers_step {M M' : Sys} {a : SysAct} (h : M.step a = some M') {x : JobId × Bool} (hx : x ∈ M.answers) : x ∈ M'.answers := by
  rcases sys_step_cases h with ⟨wf, rfl, rfl⟩ | ⟨n, b, ρ₁, ρ₂, rfl, hρ, hm, rfl⟩ |
    ⟨n, j, b, ρ, t, g', ρ', rfl, hρ, htt, hmm, rfl⟩ | ⟨n, rfl, rfl⟩ | ⟨j, y, rfl, rfl⟩
  · exact hx
  · exact hx
  · exact hx
  · exact hx
  · simp only [Sys.step, Option.some.injEq, Sys.mk.injEq] at h
    rw [show y = _ from h.2.2.2.symm]
    simp [hx]

theorem answers_runs {sa : List SysAct} {M M' : Sys} (h : runs Sys.step M sa = some M') {x : JobId × Bool} (hx : x ∈ M.answers) : x ∈ M'.answers := by
  induction sa generalizing M with
  | nil => simp only [runs, Option.some.injEq] at h; subst h; exact hx
  | cons a sa ih =>
    simp only [runs] at h
    cases hs : M.step a with
    | none => rw [hs] at h; simp at h
    | some M1 => rw [hs] at h; exact ih h (answers_step hs hx)

theorem handedOver_len {xs es : List Event} (h : ∀ c, Event.runnerRun c ∉ es) : (handedOver (xs ++ es)).length = (handedOver xs).length := by
  induction es using List.reverseRecOn with
  | nil => simp
  | append_singleton es e ih =>
    rw [← List.append_assoc, handedOver_append, ← ih (fun c hc => h c (by simp [hc]))]
    cases e with
    | runnerRun d => exact absurd (by simp) (h d)
    | log id x => simp [noteHandedOver]
    | _ => rfl

theorem note_keeps {A : List (Command × List Log)} {e : Event} {n : Nat} {c : Command} {ls : List Log} (h : A[n]? = some (c, ls)) :
    ∃ ls', (noteHandedOver A e)[n]? = some (c, ls') := by
  cases e with
  | runnerRun d => exact ⟨ls, by simp only [noteHandedOver]; rw [List.getElem?_append_left (List.getElem?_eq_some_iff.1 h).1]; exact h⟩
  | log id x =>
    simp only [noteHandedOver, List.getElem?_modify, h]
    split
    · exact ⟨_, rfl⟩
    · exact ⟨_, rfl⟩
  | _ => exact ⟨ls, h⟩

/-- The commands of the steps handed over. -/
theorem PairInv.handed {cfg : LocalSetup} {t : SysTask} {ts : List (RunPlan × LocalRun)} (h : PairInv cfg t ts) :
    ts.length ≤ (handedOver t.evs).length := by
  cases hst : stepOf t.pc with
  | none =>
    have h1 := (h.idle hst).reported
    have h2 := h.quiet hst
    rw [handedOver_other h2] at h1
    omega
  | some st =>
    rcases stepOf_cases hst with hrd | ⟨t0, ref, hpc⟩
    · obtain ⟨st', D, p, l, H, a1, a2, a3, a4, a5, a6, a7, a8, a9⟩ := h.link hrd
      have hpend : ∀ c, Event.runnerRun c ∉ t.pc.pend := by
        intro c hc
        have h5 := hrd
        unfold SysPc.reading at h5
        split at h5
        · rename_i hpc; rw [hpc] at hc; simp [SysPc.pend] at hc
        · rename_i hpc; rw [hpc] at hc; simp [SysPc.pend] at hc
        · rename_i hpc; rw [hpc] at hc; exact (h.form _ _ hpc).2 c (by simpa [SysPc.pend] using hc)
        · cases h5
      rw [← handedOver_len hpend, a8, a2]
      simp [a9.reported]
    · obtain ⟨_, _, H, h1, h2⟩ := h.calling st t0 ref hpc
      rw [hpc] at h1
      simp only [SysPc.pend, List.append_nil] at h1
      rw [h1]
      simp [h2.reported]

/-- What the task executing a step and the engine have in common. -/
theorem PairInv.now {cfg : LocalSetup} {t : SysTask} {ts : List (RunPlan × LocalRun)} (h : PairInv cfg t ts) (hr : t.pc.reading = true)
    {n : Nat} {p : RunPlan} {l : LocalRun} (hl : ts[n]? = some (p, l)) (hn : n + 1 = ts.length) {c : Command} {ls : List Log}
    (hc : (handedOver t.evs)[n]? = some (c, ls)) : ∃ st, stepOf t.pc = some st ∧ c = st.toCommand ∧ l.sig.signal = t.sig.signal := by
  obtain ⟨st', D, q, k, H, a1, a2, a3, a4, a5, a6, a7, a8, a9⟩ := h.link hr
  have hpend : ∀ c, Event.runnerRun c ∉ t.pc.pend := by
    intro c hc
    have h5 := hr
    unfold SysPc.reading at h5
    split at h5
    · rename_i hpc; rw [hpc] at hc; simp [SysPc.pend] at hc
    · rename_i hpc; rw [hpc] at hc; simp [SysPc.pend] at hc
    · rename_i hpc; rw [hpc] at hc; exact (h.form _ _ hpc).2 c (by simpa [SysPc.pend] using hc)
    · cases h5
  obtain ⟨ls', k1, _⟩ := handedOver_shrink hpend a8
  have hD : n = D.length := by rw [a2] at hn; simpa using hn
  rw [a2, hD] at hl
  simp only [List.getElem?_concat_length, Option.some.injEq, Prod.mk.injEq] at hl
  rw [k1, hD, ← a9.reported] at hc
  simp only [List.getElem?_concat_length, Option.some.injEq, Prod.mk.injEq] at hc
  exact ⟨st', a1, hc.1.symm, by rw [← hl.2]; exact a6⟩

/-- Who is told to stop because of a cancellation belongs to a job somebody cancelled. -/
def Asked (E : LocalEngine) : Prop :=
  ∀ (r i n : Nat) (p : RunPlan) (l : LocalRun) (t : SysTask) (c : Command) (ls : List Log), (E.tasks r i)[n]? = some (p, l) →
    taskAt E.sys r i = some t → (handedOver t.evs)[n]? = some (c, ls) → l.sig.signal = some .cancel → (c.id.jobId, true) ∈ E.sys.answers

theorem asked_reach {setup : EngineSetup} {acts : List EngineAct} {E : LocalEngine} (h : EngineReach setup acts E) : Asked E := by
  refine runs_induct (P := fun _ E => Asked E) ?_ ?_ h
  · intro r i n p l t c ls hl
    simp [LocalEngine.initial] at hl
  · intro acts a E E' hr ih hs r i n p l t' c ls hl hT hc hsig
    have hi := engineInv_reach hr
    have hi' : EngineInv setup (acts ++ [a]) E' := engineInv_step hi hs
    obtain ⟨sa', hsa', _⟩ := hi'.sys
    obtain ⟨_, ⟨sa, _, h3⟩, h4⟩ := engine_move hs
    have hmono : ∀ x, x ∈ E.sys.answers → x ∈ E'.sys.answers := fun x hx => answers_runs h3 hx
    have hm := h4 r i
    rw [hi.same] at hm
    have hp' := hi'.pairs r i
    rw [hT] at hp'
    have hp' : PairInv (forRun setup r) t' (E'.tasks r i) := hp'
    by_cases hlast : t'.pc.reading = true ∧ n + 1 = (E'.tasks r i).length
    · obtain ⟨st, k1, k2, k3⟩ := hp'.now hlast.1 hl hlast.2 hc
      subst k2
      exact C82_only_the_named_job sa' E'.sys hsa' r i t' hT st k1 (by rw [← k3]; exact hsig)
    · have hp := hi.pairs r i
      have hih := ih r i n
      rw [hT] at hm
      generalize E.tasks r i = ts at hm hp hih
      generalize E'.tasks r i = ts' at hm hl hlast hp'
      generalize taskAt E.sys r i = o at hm hp hih
      -- the same task before, with the same command
      have back : ∀ t q k, o = some t → ts[n]? = some (q, k) → k.sig.signal = some .cancel → PairInv (forRun setup r) t ts →
          (t'.evs = t.evs ∨ ∃ e, t'.evs = t.evs ++ [e]) → (c.id.jobId, true) ∈ E'.sys.answers := by
        intro t q k e1 e2 e3 e4 e5
        have hlen := e4.handed
        have hn : n < (handedOver t.evs).length := Nat.lt_of_lt_of_le (List.getElem?_eq_some_iff.1 e2).1 hlen
        obtain ⟨y, hy⟩ : ∃ y, (handedOver t.evs)[n]? = some y := ⟨_, List.getElem?_eq_getElem hn⟩
        obtain ⟨c0, ls0⟩ := y
        have : c0 = c := by
          rcases e5 with e5 | ⟨e, e5⟩
          · rw [e5, hy] at hc; cases hc; rfl
          · rw [e5, handedOver_append] at hc
            obtain ⟨ls', hk⟩ := note_keeps (e := e) hy
            rw [hk] at hc; cases hc; rfl
        subst this
        exact hmono _ (hih q k t c0 ls0 e2 e1 hy e3)
      generalize ho' : some t' = o' at hm
      cases hm with
      | same =>
        subst ho'
        exact back t' p l rfl hl hsig hp (.inl rfl)
      | born k j =>
        have : ts = [] := hp
        subst this
        simp at hl
      | eng g g' ρ ρ' now _ _ b t t1 _ hb ht hss ht' =>
        cases ho'
        have hev : t'.evs = t.evs ∨ ∃ e, t'.evs = t.evs ++ [e] := by
          obtain ⟨t2, q1, q2⟩ := taskStep_trace hss
          have : t2 = t' := by
            have hi := (List.getElem?_eq_some_iff.1 ht).1
            rw [q1] at ht'
            simpa [hi] using ht'
          subst this
          rcases q2 with ⟨_, q⟩ | ⟨e, _, q⟩
          · exact .inl q
          · exact .inr ⟨e, q⟩
        split at hl
        · rename_i hrd
          rcases modify_get hl with hl | ⟨e, y, hy, _⟩
          · exact back t p l rfl hl hsig hp hev
          · exfalso
            refine hlast ⟨hrd, ?_⟩
            rw [if_pos hrd, List.length_modify]
            have := (List.getElem?_eq_some_iff.1 hy).1
            omega
        · exact back t p l rfl hl hsig hp hev
      | spawned t _ st t0 ref hpc q hq =>
        cases ho'
        rw [List.getElem?_append] at hl
        split at hl
        · exact back t p l rfl hl hsig hp (.inl rfl)
        · rename_i hlt
          exfalso
          refine hlast ⟨rfl, ?_⟩
          cases hk : n - ts.length with
          | zero => simp; omega
          | succ m => simp [hk] at hl
      | other _ _ n0 b q k k' hget hb hss hno =>
        subst ho'
        rw [List.getElem?_set] at hl
        split at hl
        · rename_i e
          subst e
          split at hl
          · cases hl
            exact back t' p k rfl hget (by rw [← signal_step hb hss]; exact hsig) hp (.inl rfl)
          · cases hl
        · exact back t' p l rfl hl hsig hp (.inl rfl)
      | wrote t _ n0 b q k k' hget hb hss hrr hn st hst =>
        cases ho'
        rw [List.getElem?_set] at hl
        split at hl
        · rename_i e
          subst e
          split at hl
          · cases hl
            exact back t p k rfl hget (by rw [← signal_step hb hss]; exact hsig) hp (.inl rfl)
          · cases hl
        · exact back t p l rfl hl hsig hp (.inl rfl)

end AstroRun
