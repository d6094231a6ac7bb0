import Verif.Spec.SystemAlone
import Verif.Lemmas.SystemCancel
import Verif.Lemmas.LocalEngine

/-! # One job run of a busy engine, seen alone -/

namespace AstroRun
open Spec

/-- The entry of job `j` in the signal table, and the signal it points to. -/
def Slot (g : SigMgr) (j : JobId) : Option (Nat × SigState) → Prop
  | none => g.getSignal j = none
  | some (ref, c) => g.getSignal j = some ref ∧ g.heap[ref]? = some c

/-- Issuing `e` leaves the signal table alone. -/
def Plain (e : Event) : Prop := ∀ g : SigMgr, g.noted e = g

/-- The job is announced and not completed; its steps listen to `ref`. -/
def ActiveAt (ref : Nat) : SysPc → Prop
  | .emitting es k => (∀ e ∈ es, Plain e) ∧ ActiveAt ref k
  | .next | .queued _ _ => True
  | .calling _ _ x | .handling _ _ x | .select _ _ _ x => x = ref
  | _ => False

/-- The job run is over. -/
def OverAt : SysPc → Prop
  | .emitting es k => (∀ e ∈ es, Plain e) ∧ OverAt k
  | .finished _ | .sent _ => True
  | _ => False

/-- The job run of the engine and the job alone.  Registering and removing the job's signal is part of the first and last move of the
job alone, but of the announcements of job run; in between the job alone waits, with its clock stopped: `lag` is the move it has to make. -/
inductive AlonePhase (now : Time) (job : Job) (ans : List Bool) : Option (Nat × SigState) → Option SysTask → List JobAct → JobM → Prop
  | unborn : AlonePhase now job ans none none [] { job := job, now := now, answers := ans }
  | init (key : Id) : AlonePhase now job ans none (some { key := key, job := job }) [] { job := job, now := now, answers := ans }
  | starting (key : Id) (n : Time) (b : Bool) (hn : n ≤ now) (hb : shouldSkip job.on b = false) :
      AlonePhase now job ans none
        (some { key := key, job := job, pc := .emitting [.runJob job.id, .jobState job.id .inProgress] .next, startedAt := n, rest := job.steps })
        [.check b] { job := job, now := n, answers := ans }
  | running (t : SysTask) (ref : Nat) (c : SigState) (hj : t.job = job) (hp : ActiveAt ref t.pc) :
      AlonePhase now job ans (some (ref, c)) (some t) [] { t.toJobM now (some c) with answers := ans }
  | finishing (t : SysTask) (ref : Nat) (c : SigState) (es E : List Event) (tf : Time) (hj : t.job = job) (hr : t.rest = [])
      (hp : t.pc = .emitting es (.finished (t.finalResult tf)))
      (hes : es = [.jobState t.job.id (t.finalResult tf).state, .jobCompleted (t.finalResult tf)] ∨ es = [.jobCompleted (t.finalResult tf)])
      (hE : t.evs ++ es = E ++ [.jobState t.job.id (t.finalResult tf).state, .jobCompleted (t.finalResult tf)]) (hn : tf ≤ now) :
      AlonePhase now job ans (some (ref, c)) (some t) [.finishJob]
        { job := job, now := tf, pc := .next, startedAt := t.startedAt, rest := [], acc := ⟨E, t.results, t.state⟩, jobSig := some c,
          sig := t.sig, stream := t.stream, answers := ans }
  | over (t : SysTask) (hj : t.job = job) (hp : OverAt t.pc) :
      AlonePhase now job ans none (some t) [] { t.toJobM now none with answers := ans }

/-! ## Others do not interfere -/

theorem SysOk.move {g g' : SigMgr} {ρ ρ' : SysRun} {now : Time} {i : Nat} {t : SysTask} {a : TaskAct}
    (ht : SysOk t) (h : Sys.taskStep g ρ now i t a = some (g', ρ')) :
    ∃ t', ρ'.tasks = ρ.tasks.set i t' ∧ SysOk t' := by
  obtain ⟨t', h1, h2, h3, _, _, _, _, _, _, hc⟩ := taskStep_frame h
  refine ⟨t', h1, ?_⟩
  rcases hc with ⟨e, es, k, hpc, rfl, _⟩ | ⟨k, hpc, rfl, _⟩ | ⟨s, t0, ref, hpc, rfl, _⟩ | ⟨s, t0, hpc, rfl, _⟩ |
    ⟨s, t0, d, ref, sg, hpc, rfl, _⟩ | ⟨r, hpc, rfl, _⟩ | ⟨hs, _⟩
  · exact ht.emit hpc
  · exact ht.leave hpc
  · exact ht.called hpc
  · exact ht.panicked hpc
  · exact ht.signalled hpc
  · exact ht.sent hpc
  · exact ht.step hs

theorem taskOk_reach {acts : List SysAct} {M : Sys} (h : SysReach acts M) {r : Nat} {ρ : SysRun} (hr : M.runs[r]? = some ρ) {t : SysTask}
    (ht : t ∈ ρ.tasks) : SysOk t := by
  refine run_always (P := fun ρ => ∀ t ∈ ρ.tasks, SysOk t) (by simp) ?_ ?_ h r ρ hr t ht
  · intro now ρ a ρ' hP hm t ht
    obtain ⟨es, hes⟩ := main_fresh hm
    rw [hes] at ht
    rcases List.mem_append.1 ht with h | h
    · exact hP t h
    · obtain ⟨e, _, rfl⟩ := List.mem_map.1 h
      exact SysOk.new _ _
  · intro g g' now ρ ρ' i t a hP ht hm u hu
    obtain ⟨t', h1, h2⟩ := (hP t (List.mem_of_getElem? ht)).move hm
    rw [h1] at hu
    rcases List.mem_or_eq_of_mem_set hu with hu | rfl
    · exact hP u hu
    · exact h2

theorem ordered_begun {j id : JobId} {evs : List Event} (h : WellOrdered j evs) (hr : (id, WorkflowState.inProgress) ∈ jobReports evs) :
    Event.runJob j ∈ evs := by
  have hm : Event.jobState id .inProgress ∈ evs := by
    simp only [jobReports, List.mem_filterMap] at hr
    obtain ⟨e, he, hx⟩ := hr
    cases e <;> simp at hx
    obtain ⟨rfl, rfl⟩ := hx
    exact he
  obtain ⟨pre, post, rfl⟩ := List.append_of_mem hm
  obtain ⟨_, ⟨_, h2⟩ | ⟨h1, _⟩ | ⟨_, _, h3, _⟩⟩ := h pre _ post rfl
  · cases h2
  · simp [h1]
  · cases h3

theorem completed_begun {t : SysTask} {evs es : List Event} {k : SysPc} {res : JobRunResult}
    (h : LifeAt t evs (.emitting (.jobCompleted res :: es) k)) : res.id = t.job.id ∧ Event.runJob t.job.id ∈ evs := by
  have ho : WellOrdered t.job.id (evs ++ .jobCompleted res :: es) := LifeAt.ordered (pc := k) h
  obtain ⟨h1, h2, h3, h4, _⟩ := ho evs _ es rfl
  refine ⟨h1, ?_⟩
  obtain ⟨pre, rfl⟩ : ∃ pre, evs = pre ++ [.jobState t.job.id res.state] := by
    rw [List.getLast?_eq_some_iff] at h2
    exact h2
  obtain ⟨_, ⟨_, h5⟩ | ⟨_, h5⟩ | ⟨h5, _⟩⟩ := ho pre (.jobState t.job.id res.state) (.jobCompleted res :: es) (by simp)
  · exact absurd h5 h4
  · rw [h5] at h3; cases h3
  · refine List.mem_append_left _ (ordered_begun (id := t.job.id) ?_ (by rw [h5]; simp))
    intro p e q hq
    exact ho p e (q ++ [.jobState t.job.id res.state] ++ .jobCompleted res :: es) (by simp [hq])

theorem select_begun {t : SysTask} {evs : List Event} {s : Step} {t0 d : Time} {ref : Nat}
    (h : LifeAt t evs (.select s t0 d ref)) : Event.runJob t.job.id ∈ evs :=
  ordered_begun h.ordered (id := t.job.id) (by rw [h.2.1]; simp)

theorem announced_of {acts : List SysAct} {M : Sys} {r i : Nat} {ρ : SysRun} {t : SysTask} {j : JobId} (h : SysReach acts M)
    (hr : M.runs[r]? = some ρ) (ht : ρ.tasks[i]? = some t) (he : Event.runJob j ∈ t.evs) : Announced M j r i :=
  ⟨ρ, hr, by rw [(runLife_reach h hr).events i, ht]; exact he⟩

theorem announced_evs {acts : List SysAct} {M : Sys} {r i : Nat} {j : JobId} (h : SysReach acts M) (ha : Announced M j r i) :
    ∃ ρ t, M.runs[r]? = some ρ ∧ ρ.tasks[i]? = some t ∧ Event.runJob j ∈ t.evs := by
  obtain ⟨ρ, hr, he⟩ := ha
  rw [(runLife_reach h hr).events i] at he
  cases ht : ρ.tasks[i]? with
  | none => simp [ht] at he
  | some t => exact ⟨ρ, t, hr, ht, by simpa [ht] using he⟩

theorem Spec.Announced.keep {acts : List SysAct} {M M' : Sys} {a : SysAct} {r i : Nat} {j : JobId} (h : SysReach acts M) (hs : M.step a = some M')
    (ha : Announced M j r i) : Announced M' j r i := by
  obtain ⟨ρ, t, h1, h2, h3⟩ := announced_evs h ha
  obtain ⟨ρ', t', h1', h2', h3'⟩ := keepsEvents_step hs r i ρ t h1 h2
  exact announced_of (runs_snoc.2 ⟨M, h, hs⟩) h1' h2' (h3' _ h3)

theorem Spec.NoOther.init {acts : List SysAct} {M M' : Sys} {a : SysAct} {r i : Nat} {j : JobId} (h : SysReach acts M) (hs : M.step a = some M')
    (ha : NoOther M' j r i) : NoOther M j r i := fun r' i' hx => ha r' i' (hx.keep h hs)

/-- Nothing is registered for a job that its job run has not announced. -/
theorem slot_none {acts : List SysAct} {M : Sys} {r i : Nat} {j : JobId} (h : SysReach acts M) (hno : NoOther M j r i)
    (ht : ∀ t, taskAt M r i = some t → Event.runJob j ∉ t.evs) : M.mgr.getSignal j = none := by
  cases hg : M.mgr.getSignal j with
  | none => rfl
  | some ref =>
    obtain ⟨ow, hc⟩ := cancelInv_reach h
    obtain ⟨⟨r', i'⟩, hp⟩ := hc.table j ref hg
    obtain ⟨ρ, t, h1, h2, h3⟩ := hc.regs ref j r' i' hp
    obtain ⟨rfl, rfl⟩ := hno r' i' (announced_of h h1 h2 h3)
    exact absurd h3 (ht t (by simp [taskAt, h1, h2]))

/-- A move of another job run leaves the job's entry and signal alone. -/
theorem slot_other {acts : List SysAct} {M M' : Sys} {r i n k : Nat} {b : TaskAct} {j : JobId} {sl : Option (Nat × SigState)}
    (h : SysReach acts M) (hk : HooksKeepJobs acts) (hs : M.step (.task n k b) = some M') (hno : NoOther M' j r i) (hne : ¬ (n = r ∧ k = i))
    (hsl : Slot M.mgr j sl) : Slot M'.mgr j sl := by
  have hno0 := hno.init h hs
  rcases sys_step_cases hs with ⟨wf, h1, _⟩ | ⟨_, _, ρ₁, ρ₂, h1, _⟩ |
    ⟨_, _, _, ρ₁, t, g', ρ₂, h1, hρ, ht, hmm, rfl⟩ | ⟨n, h1, _⟩ | ⟨j, x, h1, _⟩
  all_goals cases h1
  have hLife := (runLife_reach h hρ).tasks t (List.mem_of_getElem? ht)
  have hann : Event.runJob j ∉ t.evs := fun he => hne (hno0 n k (announced_of h hρ ht he))
  unfold Sys.taskStep at hmm
  split at hmm
  · split at hmm
    · cases hmm; exact hsl
    · rename_i e es kk hpc
      cases hmm
      rw [hpc] at hLife
      cases e with
      | runJob id =>
        have hid : id ≠ j := by
          rintro rfl
          refine hne (hno n k (announced_of (runs_snoc.2 ⟨M, h, hs⟩) (ρ := ρ₁.emit k { t with pc := .emitting es kk } (.runJob id))
            (t := { t with pc := .emitting es kk, evs := t.evs ++ [.runJob id] }) ?_ ?_ (by simp)))
          · simp [(List.getElem?_eq_some_iff.1 hρ).1]
          · simp [SysRun.emit, SysRun.setTask, (List.getElem?_eq_some_iff.1 ht).1]
        match sl, hsl with
        | none, hsl =>
          simp only [Slot, SigMgr.noted, SigMgr.register, SigMgr.getSignal, AMap.get?_insert] at hsl ⊢
          rw [if_neg (by simpa using hid)]
          exact hsl
        | some (ref, c), hsl =>
          simp only [Slot, SigMgr.noted, SigMgr.register, SigMgr.getSignal, AMap.get?_insert] at hsl ⊢
          rw [if_neg (by simpa using hid), List.getElem?_append_left (List.getElem?_eq_some_iff.1 hsl.2).1]
          exact hsl
      | jobCompleted res =>
        obtain ⟨e1, e2⟩ := completed_begun hLife
        have hid : res.id ≠ j := by
          rintro rfl
          rw [e1] at hann
          exact hann e2
        match sl, hsl with
        | none, hsl =>
          simp only [Slot, SigMgr.noted, SigMgr.unregister, SigMgr.getSignal, AMap.get?_erase] at hsl ⊢
          rw [if_neg (by simpa using hid)]
          exact hsl
        | some (ref, c), hsl =>
          simp only [Slot, SigMgr.noted, SigMgr.unregister, SigMgr.getSignal, AMap.get?_erase] at hsl ⊢
          rw [if_neg (by simpa using hid)]
          exact hsl
      | _ => exact hsl
    · simp at hmm
  · split at hmm
    · split at hmm <;> cases hmm <;> exact hsl
    · simp at hmm
  · split at hmm
    · rename_i s0 t0 d ref' hpc
      split at hmm
      · rename_i c' hc'
        split at hmm
        · cases hmm
          match sl, hsl with
          | none, hsl => exact hsl
          | some (ref, c), hsl =>
            refine ⟨hsl.1, ?_⟩
            have hrr : ref' ≠ ref := by
              rintro rfl
              obtain ⟨ow, hci⟩ := cancelInv_reach h
              obtain ⟨p, hp⟩ := hci.table j ref' hsl.1
              have hR := hci.tasks n ρ₁ k t hρ ht
              rw [hpc] at hR hLife
              obtain ⟨⟨q, hq⟩, _⟩ := hR
              rw [hp] at hq
              have hsj : j = s0.id.jobId := by simpa using (congrArg Prod.fst (Option.some.inj hq))
              have hb := select_begun hLife
              have hkept := kept_reach hk h n ρ₁ hρ k t ht
              have hrun : Event.runStep s0 ∈ t.evs ++ t.pc.pend := by
                have hok := (taskOk_reach h hρ (List.mem_of_getElem? ht)).1
                simp only [PcInv, SysTask.toJobM, hpc, SysPc.toJobPc, SysPc.pend, List.append_nil] at hok
                obtain ⟨⟨_, ps, _, _, _, _, _, h4⟩, _⟩ := hok
                simp only [JobAcc.mk.injEq] at h4
                rw [h4.1]
                simp
              have := hkept s0 hrun
              rw [hsj, this] at hann
              exact hann hb
            dsimp only
            rw [List.getElem?_set_ne hrr]
            exact hsl.2
        · simp at hmm
      · simp at hmm
    · simp at hmm
  · split at hmm
    · split at hmm
      · cases hmm; exact hsl
      · split at hmm
        · cases hmm; exact hsl
        · simp at hmm
    · simp at hmm
  · cases hst : t.step M.now b with
    | none => simp [hst] at hmm
    | some t' =>
      simp only [hst, Option.map_some, Option.some.injEq, Prod.mk.injEq] at hmm
      obtain ⟨rfl, rfl⟩ := hmm
      exact hsl

/-! ## The job run's own moves -/

theorem plain_state (id : JobId) (s : WorkflowState) : Plain (.jobState id s) := fun _ => rfl

/-- A move of the job run that touches nothing shared, while the job is active. -/
theorem active_step {t t' : SysTask} {now : Time} {a : TaskAct} {ref : Nat} (h : t.step now a = some t') (hok : SysOk t) (hp : ActiveAt ref t.pc)
    (hf : a ≠ .finishJob) (c : SigState) : ActiveAt ref t'.pc ∧
      ∃ ja, jobMove a = some ja ∧ (t.toJobM now (some c)).step ja = some (t'.toJobM now (some c)) := by
  cases a <;> simp only [SysTask.step] at h
  case check b =>
    split at h
    · rename_i hpc
      rw [hpc] at hp
      exact absurd hp (by simp [ActiveAt])
    · simp at h
  case nextStep b s =>
    split at h
    · rename_i st rest hpc hrest
      split at h
      · rename_i hs
        cases h
        refine ⟨⟨by simp [Plain, SigMgr.noted], trivial⟩, _, rfl, ?_⟩
        simp [JobM.step, SysTask.toJobM, hpc, hrest, SysPc.toJobPc, hs, SysTask.emitThen, SysPc.pend]
      · rename_i hs
        cases h
        refine ⟨⟨by simp [Plain, SigMgr.noted], trivial⟩, _, rfl, ?_⟩
        simp [JobM.step, SysTask.toJobM, hpc, hrest, SysPc.toJobPc, hs, SysTask.emitThen, SysPc.pend, JobM.emit]
    · simp at h
  case finishJob => exact absurd rfl hf
  case refuse e =>
    split at h
    · rename_i s t0 ref hpc
      cases h
      refine ⟨⟨by simp [Plain, SigMgr.noted], trivial⟩, _, rfl, ?_⟩
      simp [JobM.step, SysTask.toJobM, hpc, SysPc.toJobPc, SysTask.stepDone, SysTask.emitThen, SysPc.pend, JobM.stepDone]
    · simp at h
  case accept =>
    split at h
    · rename_i s t0 ref hpc
      cases h
      rw [hpc] at hp
      refine ⟨⟨by simp [Plain, SigMgr.noted], hp⟩, _, rfl, ?_⟩
      simp [JobM.step, SysTask.toJobM, hpc, SysPc.toJobPc, SysTask.emitThen, SysPc.pend, JobM.emit]
    · simp at h
  case enter =>
    split at h
    · rename_i s t0 ref hpc
      cases h
      rw [hpc] at hp
      refine ⟨hp, _, rfl, ?_⟩
      simp [JobM.step, SysTask.toJobM, hpc, SysPc.toJobPc, SysPc.pend]
    · simp at h
  case timer =>
    split at h
    · rename_i s t0 d ref hpc
      split at h
      · rename_i hd
        cases h
        rw [hpc] at hp
        refine ⟨hp, _, rfl, ?_⟩
        simp [JobM.step, SysTask.toJobM, hpc, SysPc.toJobPc, SysPc.pend, hd]
      · simp at h
    · simp at h
  case recv =>
    split at h
    · rename_i s t0 d ref hpc
      rw [hpc] at hp
      split at h
      · rename_i st' l hpoll
        cases h
        refine ⟨⟨by simp [Plain, SigMgr.noted], hp⟩, _, rfl, ?_⟩
        simp [JobM.step, SysTask.toJobM, hpc, SysPc.toJobPc, SysPc.pend, SysTask.emitThen, JobM.emit, hpoll]
      · rename_i st' hpoll
        split at h
        · rename_i res hres
          cases h
          refine ⟨⟨by simp [Plain, SigMgr.noted], trivial⟩, _, rfl, ?_⟩
          simp [JobM.step, SysTask.toJobM, hpc, SysPc.toJobPc, SysPc.pend, SysTask.stepDone, SysTask.emitThen,
            JobM.stepDone, hpoll, hres]
        · simp at h
      · simp at h
    · simp at h
  case push l =>
    split at h
    · rename_i ha
      cases h
      refine ⟨hp, _, rfl, ?_⟩
      unfold SysPc.runnerActive at ha
      split at ha <;> first | (exfalso; simp at ha; done) | (rename_i hpc; simp [JobM.step, SysTask.toJobM, hpc, SysPc.toJobPc, SysPc.pend])
    · simp at h
  case endStream r =>
    split at h
    · rename_i ha
      cases h
      refine ⟨hp, _, rfl, ?_⟩
      unfold SysPc.runnerActive at ha
      split at ha <;> first | (exfalso; simp at ha; done) | (rename_i hpc; simp [JobM.step, SysTask.toJobM, hpc, SysPc.toJobPc, SysPc.pend])
    · simp at h
  all_goals simp at h

/-- Answers do not matter for the other moves. -/
theorem step_answers {m m' : JobM} {a : JobAct} (ha : a ≠ .cancel) (h : m.step a = some m') (ans : List Bool) :
    ({ m with answers := ans } : JobM).step a = some { m' with answers := ans } := by
  cases a <;> simp only [JobM.step] at h ⊢
  case cancel => exact absurd rfl ha
  all_goals (first
    | (repeat' split at h) <;> first | (exfalso; simp at h; done) | (cases h; simp_all [JobM.emit, JobM.stepDone]; done)
    | (cases h; rfl))

theorem over_still {t : SysTask} (hp : OverAt t.pc) (now : Time) (a : TaskAct) : t.step now a = none := by
  cases hpc : t.pc with
  | emitting es k =>
    rw [hpc] at hp
    have hk := hp.2
    cases k <;> simp only [OverAt] at hk <;> cases a <;> simp [SysTask.step, hpc, SysPc.runnerActive]
  | finished r => cases a <;> simp [SysTask.step, hpc, SysPc.runnerActive]
  | sent r => cases a <;> simp [SysTask.step, hpc, SysPc.runnerActive]
  | _ => rw [hpc] at hp; exact absurd hp (by simp [OverAt])

theorem runs_one {σ α : Type} {f : σ → α → Option σ} {s s' : σ} {a : α} (h : f s a = some s') : runs f s [a] = some s' := by
  simp [runs, h]

theorem runs_two {σ α : Type} {f : σ → α → Option σ} {s s' s'' : σ} {a b : α} (h : f s a = some s') (h' : f s' b = some s'') :
    runs f s [a, b] = some s'' := by
  simp [runs, h, h']

/-- What a move of the job run is for the job alone. -/
theorem phase_own {g g' : SigMgr} {ρ ρ' : SysRun} {now : Time} {i : Nat} {t : SysTask} {a : TaskAct} {job : Job} {ans : List Bool}
    {sl : Option (Nat × SigState)} {lag : List JobAct} {m : JobM}
    (hph : AlonePhase now job ans sl (some t) lag m) (hsl : Slot g job.id sl) (hok : SysOk t)
    (hq : ∀ s t0, t.pc = .queued s t0 → s.id.jobId = t.job.id) (h : Sys.taskStep g ρ now i t a = some (g', ρ')) :
    ∃ sl' t' lag' ja m', ρ'.tasks = ρ.tasks.set i t' ∧ Slot g' job.id sl' ∧ runs JobM.step m ja = some m' ∧
      AlonePhase now job ans sl' (some t') lag' m' ∧ ownMoves ja ++ lag' = lag ++ (jobMove a).toList ∧
      (ja.length ≤ 1 ∨ m.pc.reading = false) ∧ JobAct.cancel ∉ ja ∧
      ∀ n, JobAct.tick n ∈ ja → lag ≠ [] := by
  cases hph with
  | init key =>
    cases a <;> simp only [Sys.taskStep, SysTask.step] at h <;>
      first | (exfalso; simp [SysPc.runnerActive] at h; done) | skip
    rename_i b
    split at h
    · rename_i hb
      simp only [Option.map_some, Option.some.injEq, Prod.mk.injEq] at h
      obtain ⟨rfl, rfl⟩ := h
      refine ⟨none, _, [], [.check b], _, rfl, hsl, runs_one (f := JobM.step) (s' := _) ?_, .over _ rfl ⟨by simp [Plain, SigMgr.noted], trivial⟩, by simp [ownMoves, jobMove], .inl (by simp), by simp, by simp⟩
      simp [JobM.step, hb, JobM.emit, SysTask.toJobM, SysTask.emitThen, SysPc.toJobPc, SysPc.pend]
    · rename_i hb
      simp only [Option.map_some, Option.some.injEq, Prod.mk.injEq] at h
      obtain ⟨rfl, rfl⟩ := h
      exact ⟨none, _, [.check b], [], _, rfl, hsl, rfl, .starting key now b (Nat.le_refl _) (by simpa using hb), by simp [ownMoves, jobMove], .inl (by simp), by simp, by simp⟩
  | starting key n b hn hb =>
    cases a <;> simp only [Sys.taskStep, SysTask.step] at h <;>
      first | (exfalso; simp [SysPc.runnerActive] at h; done) | skip
    simp only [Option.some.injEq, Prod.mk.injEq] at h
    obtain ⟨rfl, rfl⟩ := h
    refine ⟨some (g.heap.length, {}), _, [], [.check b, .tick (now - n)], _, rfl, ?_, runs_two (f := JobM.step)
        (s' := { job := job, now := n, pc := .next, startedAt := n, rest := job.steps, jobSig := some {}, acc := JobAcc.start job.id, answers := ans })
        (s'' := _) ?_ ?_,
      .running _ g.heap.length {} rfl ⟨by simp [Plain, SigMgr.noted], trivial⟩, by simp [ownMoves, jobMove], .inr rfl, by simp, by simp⟩
    · simp [Slot, SigMgr.noted, SigMgr.register, SigMgr.getSignal]
    · simp [JobM.step, hb]
    · simp only [JobM.step, SysTask.toJobM, SysPc.toJobPc, SysPc.pend, JobAcc.start, Nat.add_sub_cancel' hn]
      simp
  | running _ ref c hj hp =>
    unfold Sys.taskStep at h
    split at h
    · split at h
      · rename_i k hpc
        cases h
        rw [hpc] at hp
        refine ⟨some (ref, c), _, [], [], _, rfl, hsl, rfl, ?_, by simp [ownMoves, jobMove], .inl (by simp), by simp, by simp⟩
        have : ({ t.toJobM now (some c) with answers := ans } : JobM) =
            { ({ t with pc := k } : SysTask).toJobM now (some c) with answers := ans } := by
          simp [SysTask.toJobM, hpc, SysPc.toJobPc, SysPc.pend]
        rw [this]
        exact .running _ ref c hj hp.2
      · rename_i e es k hpc
        cases h
        rw [hpc] at hp
        have hpl : g.noted e = g := hp.1 e (by simp) g
        refine ⟨some (ref, c), _, [], [], _, rfl, by rw [hpl]; exact hsl, rfl, ?_, by simp [ownMoves, jobMove], .inl (by simp), by simp, by simp⟩
        have : ({ t.toJobM now (some c) with answers := ans } : JobM) =
            { ({ t with pc := .emitting es k, evs := t.evs ++ [e] } : SysTask).toJobM now (some c) with answers := ans } := by
          simp [SysTask.toJobM, hpc, SysPc.toJobPc, SysPc.pend]
        rw [this]
        exact .running _ ref c hj ⟨fun x hx => hp.1 x (by simp [hx]), hp.2⟩
      · simp at h
    · split at h
      · rename_i s t0 hpc
        have hsid := hq s t0 hpc
        rw [hj] at hsid
        rw [hsid, hsl.1] at h
        cases h
        refine ⟨some (ref, c), _, [], [.call], _, rfl, hsl, runs_one (f := JobM.step) (s' := _) ?_, .running _ ref c hj rfl, by simp [ownMoves, jobMove], .inl (by simp), by simp, by simp⟩
        simp [JobM.step, SysTask.toJobM, hpc, SysPc.toJobPc, SysPc.pend, hsid, hj, JobM.emit]
      · simp at h
    · split at h
      · rename_i s t0 d ref' hpc
        rw [hpc] at hp
        replace hp : ref' = ref := hp
        subst hp
        rw [hsl.2] at h
        dsimp only at h
        split at h
        · rename_i js' v hpoll
          cases h
          refine ⟨some (ref', js'), _, [], [.jobSignal], _, rfl, ⟨hsl.1, ?_⟩, runs_one (f := JobM.step) (s' := _) ?_, .running _ ref' js' hj rfl, by simp [ownMoves, jobMove], .inl (by simp), by simp, by simp⟩
          · exact List.getElem?_set_self (List.getElem?_eq_some_iff.1 hsl.2).1
          · simp [JobM.step, SysTask.toJobM, hpc, SysPc.toJobPc, SysPc.pend, hpoll]
        · simp at h
      · simp at h
    · split at h
      · rename_i r hpc
        rw [hpc] at hp
        exact absurd hp (by simp [ActiveAt])
      · simp at h
    · cases hst : t.step now a with
      | none => simp [hst] at h
      | some t' =>
        simp only [hst, Option.map_some, Option.some.injEq, Prod.mk.injEq] at h
        obtain ⟨rfl, rfl⟩ := h
        by_cases hf : a = .finishJob
        · subst hf
          simp only [SysTask.step] at hst
          split at hst
          · rename_i hpc hrest
            cases hst
            refine ⟨some (ref, c), _, [.finishJob], [], _, rfl, hsl, rfl, ?_, by simp [ownMoves, jobMove], .inl (by simp), by simp, by simp⟩
            have : ({ t.toJobM now (some c) with answers := ans } : JobM) =
                { job := job, now := now, pc := .next, startedAt := t.startedAt, rest := [], acc := ⟨t.evs, t.results, t.state⟩, jobSig := some c,
                  sig := t.sig, stream := t.stream, answers := ans } := by
              simp [SysTask.toJobM, hpc, SysPc.toJobPc, SysPc.pend, hrest, hj]
            rw [this]
            exact .finishing (t.emitThen _ _) ref c _ t.evs now hj hrest rfl (.inl rfl) rfl (Nat.le_refl _)
          · simp at hst
        · obtain ⟨h1, ja, h2, h3⟩ := active_step hst hok hp hf c
          have hja : ja ≠ .cancel := by
            rintro rfl
            cases a <;> simp [jobMove] at h2
          refine ⟨some (ref, c), _, [], [ja], _, rfl, hsl, runs_one (step_answers hja h3 ans), .running _ ref c ((SysTask.step_job hst).1.trans hj) h1, ?_, .inl (by simp), by simpa using hja.symm, ?_⟩
          · rw [h2]
            cases a <;> simp [jobMove] at h2 <;> subst h2 <;> simp [ownMoves]
          · intro n hn
            simp only [List.mem_singleton] at hn
            subst hn
            cases a <;> simp [jobMove] at h2
  | finishing _ ref c es E tf hj hr hp hes hE hn =>
    rcases hes with rfl | rfl
    · cases a <;> simp only [Sys.taskStep, SysTask.step, hp] at h <;>
        first | (exfalso; simp [SysPc.runnerActive] at h; done) | skip
      simp only [Option.some.injEq, Prod.mk.injEq] at h
      obtain ⟨rfl, rfl⟩ := h
      refine ⟨some (ref, c), _, [.finishJob], [], _, rfl, hsl, rfl, .finishing _ ref c _ E tf hj hr rfl (.inr rfl) ?_ hn, by simp [ownMoves, jobMove], .inl (by simp), by simp, by simp⟩
      rw [List.append_assoc]
      exact hE
    · cases a <;> simp only [Sys.taskStep, SysTask.step, hp] at h <;>
        first | (exfalso; simp [SysPc.runnerActive] at h; done) | skip
      simp only [Option.some.injEq, Prod.mk.injEq] at h
      obtain ⟨rfl, rfl⟩ := h
      refine ⟨none, _, [], [.finishJob, .tick (now - tf)], _, rfl, ?_, runs_two (f := JobM.step)
          (s' := {
            job := job, now := tf, pc := .finished (t.finalResult tf), startedAt := t.startedAt, rest := [],
            acc := ⟨E ++ [.jobState t.job.id (t.finalResult tf).state, .jobCompleted (t.finalResult tf)], t.results, t.state⟩, jobSig := none,
            sig := t.sig, stream := t.stream, answers := ans }) (s'' := _) ?_ ?_,
        .over _ hj ⟨by simp, trivial⟩, by simp [ownMoves, jobMove], .inr rfl, by simp, by simp⟩
      · simp [Slot, SigMgr.noted, SigMgr.unregister, SigMgr.getSignal, SysTask.finalResult, hj]
      · simp [JobM.step, JobAcc.finish, SysTask.finalResult, hj]
      · simp only [JobM.step, SysTask.toJobM, SysPc.toJobPc, SysPc.pend, Nat.add_sub_cancel' hn]
        simp [hE, hj, hr]
  | over _ hj hp =>
    unfold Sys.taskStep at h
    split at h
    · split at h
      · rename_i k hpc
        cases h
        rw [hpc] at hp
        refine ⟨none, _, [], [], _, rfl, hsl, rfl, ?_, by simp [ownMoves, jobMove], .inl (by simp), by simp, by simp⟩
        have : ({ t.toJobM now none with answers := ans } : JobM) =
            { ({ t with pc := k } : SysTask).toJobM now none with answers := ans } := by
          simp [SysTask.toJobM, hpc, SysPc.toJobPc, SysPc.pend]
        rw [this]
        exact .over _ hj hp.2
      · rename_i e es k hpc
        cases h
        rw [hpc] at hp
        have hpl : g.noted e = g := hp.1 e (by simp) g
        refine ⟨none, _, [], [], _, rfl, by rw [hpl]; exact hsl, rfl, ?_, by simp [ownMoves, jobMove], .inl (by simp), by simp, by simp⟩
        have : ({ t.toJobM now none with answers := ans } : JobM) =
            { ({ t with pc := .emitting es k, evs := t.evs ++ [e] } : SysTask).toJobM now none with answers := ans } := by
          simp [SysTask.toJobM, hpc, SysPc.toJobPc, SysPc.pend]
        rw [this]
        exact .over _ hj ⟨fun x hx => hp.1 x (by simp [hx]), hp.2⟩
      · simp at h
    · split at h
      · rename_i hpc; rw [hpc] at hp; exact absurd hp (by simp [OverAt])
      · simp at h
    · split at h
      · rename_i hpc; rw [hpc] at hp; exact absurd hp (by simp [OverAt])
      · simp at h
    · split at h
      · rename_i r hpc
        have key : ({ t.toJobM now none with answers := ans } : JobM) =
            { ({ t with pc := .sent r } : SysTask).toJobM now none with answers := ans } := by
          simp [SysTask.toJobM, hpc, SysPc.toJobPc, SysPc.pend]
        split at h
        · cases h
          refine ⟨none, _, [], [], _, rfl, hsl, rfl, ?_, by simp [ownMoves, jobMove], .inl (by simp), by simp, by simp⟩
          rw [key]
          exact .over _ hj trivial
        · split at h
          · cases h
            refine ⟨none, _, [], [], _, rfl, hsl, rfl, ?_, by simp [ownMoves, jobMove], .inl (by simp), by simp, by simp⟩
            rw [key]
            exact .over _ hj trivial
          · simp at h
      · simp at h
    · rw [over_still hp] at h
      simp at h

/-! ## All moves -/

/-- What the answers to `cancel_job` become. -/
def JobM.answered (m : JobM) (ans : List Bool) : JobM := { m with answers := ans }

theorem phase_tick {now : Time} {job : Job} {ans : List Bool} {sl : Option (Nat × SigState)} {t : Option SysTask} {lag : List JobAct} {m : JobM}
    (h : AlonePhase now job ans sl t lag m) (n : Nat) :
    ∃ ja m', runs JobM.step m ja = some m' ∧ AlonePhase (now + n) job ans sl t lag m' ∧ ownMoves ja = [] ∧
      ja.length ≤ 1 ∧ JobAct.cancel ∉ ja := by
  cases h with
  | unborn => exact ⟨[.tick n], _, rfl, .unborn, rfl, by simp, by simp⟩
  | init key => exact ⟨[.tick n], _, rfl, .init key, rfl, by simp, by simp⟩
  | starting key k b hn hb => exact ⟨[], _, rfl, .starting key k b (Nat.le_trans hn (Nat.le_add_right _ _)) hb, rfl, by simp, by simp⟩
  | running t ref c hj hp => exact ⟨[.tick n], _, rfl, .running t ref c hj hp, rfl, by simp, by simp⟩
  | finishing t ref c es E tf hj hr hp hes hE hn =>
    exact ⟨[], _, rfl, .finishing t ref c es E tf hj hr hp hes hE (Nat.le_trans hn (Nat.le_add_right _ _)), rfl, by simp, by simp⟩
  | over t hj hp => exact ⟨[.tick n], _, rfl, .over t hj hp, rfl, by simp, by simp⟩

/-- The signal in the slot after a `cancel_job` for this job, and the answer. -/
def slotCancel : Option (Nat × SigState) → Option (Nat × SigState) × Bool
  | none => (none, false)
  | some (ref, c) => (some (ref, (c.set .cancel).state), (c.set .cancel).ok)

theorem phase_cancel {now : Time} {job : Job} {ans : List Bool} {sl : Option (Nat × SigState)} {t : Option SysTask} {lag : List JobAct} {m : JobM}
    (h : AlonePhase now job ans sl t lag m) :
    ∃ m', runs JobM.step m [.cancel] = some m' ∧ AlonePhase now job (ans ++ [(slotCancel sl).2]) (slotCancel sl).1 t lag m' := by
  cases h with
  | unborn => exact ⟨_, rfl, .unborn⟩
  | init key => exact ⟨_, rfl, .init key⟩
  | starting key k b hn hb => exact ⟨_, rfl, .starting key k b hn hb⟩
  | running t ref c hj hp => exact ⟨_, rfl, .running t ref _ hj hp⟩
  | finishing t ref c es E tf hj hr hp hes hE hn => exact ⟨_, rfl, .finishing t ref _ es E tf hj hr hp hes hE hn⟩
  | over t hj hp => exact ⟨_, rfl, .over t hj hp⟩

theorem slot_cancel {g : SigMgr} {j : JobId} {sl : Option (Nat × SigState)} (h : Slot g j sl) :
    Slot (g.cancelJob j).1 j (slotCancel sl).1 ∧
      ((g.cancelJob j).2 = .ok () ∧ (slotCancel sl).2 = true ∨ ∃ e, (g.cancelJob j).2 = .error e ∧ (slotCancel sl).2 = false) := by
  match sl, h with
  | none, h =>
    simp only [Slot] at h
    simp [SigMgr.cancelJob, h, Slot, slotCancel]
  | some (ref, c), h =>
    have h2 := (List.getElem?_eq_some_iff.1 h.2).1
    simp only [Slot] at h
    simp only [SigMgr.cancelJob, h.1, SigMgr.cancelRef, h.2, Slot, slotCancel, List.getElem?_set_self h2]
    refine ⟨⟨h.1, trivial⟩, ?_⟩
    cases (c.set .cancel).ok <;> simp

/-- Cancelling another job leaves this one's entry and signal alone. -/
theorem slot_cancel_other {acts : List SysAct} {M : Sys} {j j' : JobId} {sl : Option (Nat × SigState)} (hM : SysReach acts M) (hne : j' ≠ j)
    (h : Slot M.mgr j sl) : Slot (M.mgr.cancelJob j').1 j sl := by
  obtain ⟨ow, hc⟩ := cancelInv_reach hM
  have hsig : (M.mgr.cancelJob j').1.signals = M.mgr.signals := by
    unfold SigMgr.cancelJob
    split
    · rfl
    · unfold SigMgr.cancelRef
      split <;> rfl
  match sl, h with
  | none, h =>
    simp only [Slot, SigMgr.getSignal, hsig] at h ⊢
    exact h
  | some (ref, c), h =>
    refine ⟨by simp only [SigMgr.getSignal, hsig]; exact h.1, ?_⟩
    unfold SigMgr.cancelJob
    split
    · exact h.2
    · rename_i ref' hg
      unfold SigMgr.cancelRef
      split
      · exact h.2
      · have : ref' ≠ ref := by
          rintro rfl
          obtain ⟨p, hp⟩ := hc.table j ref' h.1
          obtain ⟨q, hq⟩ := hc.table j' ref' hg
          rw [hp] at hq
          exact hne (congrArg Prod.fst (Option.some.inj hq)).symm
        dsimp only
        rw [List.getElem?_set_ne this]
        exact h.2

theorem jobMoves_snoc (r i : Nat) (acts : List SysAct) (a : SysAct) : jobMoves r i (acts ++ [a]) = jobMoves r i acts ++ jobMoves r i [a] := by
  simp [jobMoves]

theorem ownMoves_append (a b : List JobAct) : ownMoves (a ++ b) = ownMoves a ++ ownMoves b := by
  simp [ownMoves]

/-- The job run and the job alone, at the end of a schedule. -/
structure AloneInv (acts : List SysAct) (M : Sys) (job : Job) (r i : Nat) (ja : List JobAct) (lag : List JobAct) (m : JobM)
    (sl : Option (Nat × SigState)) : Prop where
  reach : JobReach job 0 ja m
  slot : Slot M.mgr job.id sl
  phase : AlonePhase M.now job (answersFor job.id M) sl (taskAt M r i) lag m
  moves : ownMoves ja ++ lag = jobMoves r i acts

theorem queued_kept {acts : List SysAct} {M : Sys} (hk : HooksKeepJobs acts) (h : SysReach acts M) {r i : Nat} {ρ : SysRun} {t : SysTask}
    (hρ : M.runs[r]? = some ρ) (ht : ρ.tasks[i]? = some t) (s : Step) (t0 : Time) (hpc : t.pc = .queued s t0) : s.id.jobId = t.job.id := by
  refine kept_reach hk h r ρ hρ i t ht s ?_
  have hok := (taskOk_reach h hρ (List.mem_of_getElem? ht)).1
  simp only [PcInv, SysTask.toJobM, hpc, SysPc.toJobPc, SysPc.pend, List.append_nil] at hok
  obtain ⟨_, ps, _, _, _, _, _, h4⟩ := hok
  simp only [JobAcc.mk.injEq] at h4
  rw [h4.1]
  simp

theorem alone_step {acts : List SysAct} {M M' : Sys} {a : SysAct} {job : Job} {r i : Nat} {ja lag : List JobAct} {m : JobM}
    {sl : Option (Nat × SigState)} (hM : SysReach acts M) (hk : HooksKeepJobs acts) (hs : M.step a = some M') (hno : NoOther M' job.id r i)
    (hjob : ∀ t, taskAt M' r i = some t → t.job = job) (h : AloneInv acts M job r i ja lag m sl) :
    ∃ ja' lag' m' sl', runs JobM.step m ja' = some m' ∧ AloneInv (acts ++ [a]) M' job r i (ja ++ ja') lag' m' sl' ∧
      (ja'.length ≤ 1 ∨ m.pc.reading = false) ∧ (JobAct.cancel ∈ ja' → a = .cancel job.id) ∧
      (∀ n, JobAct.tick n ∈ ja' → lag ≠ [] ∨ ∃ k, a = .tick k) := by
  have extend : ∀ {ja' m'}, runs JobM.step m ja' = some m' → JobReach job 0 (ja ++ ja') m' := by
    intro ja' m' hr
    unfold JobReach
    rw [runs_append, show runs JobM.step (JobM.initial job 0) ja = some m from h.reach]
    exact hr
  by_cases hta : ∃ b, a = .task r i b
  · obtain ⟨b, rfl⟩ := hta
    rcases sys_step_cases hs with ⟨wf, h1, _⟩ | ⟨_, _, ρ₁, ρ₂, h1, _⟩ |
      ⟨_, _, _, ρ₁, t, g', ρ₂, h1, hρ, ht, hmm, rfl⟩ | ⟨n, h1, _⟩ | ⟨j, x, h1, _⟩
    all_goals cases h1
    have hT : taskAt M r i = some t := by simp [taskAt, hρ, ht]
    have hph := h.phase
    rw [hT] at hph
    obtain ⟨sl', t', lag', ja', m', e1, e2, e3, e4, e5, e6, e7, e8⟩ := phase_own hph h.slot (taskOk_reach hM hρ (List.mem_of_getElem? ht))
      (queued_kept hk hM hρ ht) hmm
    refine ⟨ja', lag', m', sl', e3, ⟨extend e3, e2, ?_, ?_⟩, e6, fun x => absurd x e7, fun n x => .inl (e8 n x)⟩
    · have : taskAt { M with mgr := g', runs := M.runs.set r ρ₂ } r i = some t' := by
        simp [taskAt, (List.getElem?_eq_some_iff.1 hρ).1, e1, (List.getElem?_eq_some_iff.1 ht).1]
      rw [this]
      exact e4
    · rw [ownMoves_append, List.append_assoc, e5, ← List.append_assoc, h.moves, jobMoves_snoc]
      cases hb : jobMove b <;> simp [jobMoves, hb]
  · have hmv : jobMoves r i (acts ++ [a]) = jobMoves r i acts := by
      rw [jobMoves_snoc]
      cases a with
      | task n k b =>
        have : ¬ (n = r ∧ k = i) := by
          rintro ⟨rfl, rfl⟩
          exact hta ⟨b, rfl⟩
        simp [jobMoves, this]
      | _ => simp [jobMoves]
    cases a with
    | task n k b =>
      have hne : ¬ (n = r ∧ k = i) := by
        rintro ⟨rfl, rfl⟩
        exact hta ⟨b, rfl⟩
      have hsl := slot_other hM hk hs hno hne h.slot
      rcases sys_step_cases hs with ⟨wf, h1, _⟩ | ⟨_, _, ρ₁, ρ₂, h1, _⟩ |
        ⟨_, _, _, ρ₁, t, g', ρ₂, h1, hρ, ht, hmm, rfl⟩ | ⟨n, h1, _⟩ | ⟨j, x, h1, _⟩
      all_goals cases h1
      obtain ⟨t', e1, _⟩ := taskStep_trace hmm
      refine ⟨[], lag, m, sl, rfl, ⟨by simpa using h.reach, hsl, ?_, by rw [hmv]; simpa using h.moves⟩, .inl (by simp), by simp, by simp⟩
      rw [taskAt_set_ne hρ e1 (fun x => hne ⟨x.1.symm, x.2.symm⟩)]
      exact h.phase
    | tick n =>
      simp only [Sys.step, Option.some.injEq] at hs
      subst hs
      obtain ⟨ja', m', e1, e2, e3, e4, e5⟩ := phase_tick h.phase n
      exact ⟨ja', lag, m', sl, e1, ⟨extend e1, h.slot, e2, by rw [hmv, ownMoves_append, e3]; simpa using h.moves⟩, .inl e4, fun x => absurd x e5, fun k _ => .inr ⟨n, rfl⟩⟩
    | cancel j =>
      simp only [Sys.step, Option.some.injEq] at hs
      subst hs
      by_cases hj : j = job.id
      · subst hj
        obtain ⟨m', e1, e2⟩ := phase_cancel h.phase
        obtain ⟨e3, e4⟩ := slot_cancel h.slot
        refine ⟨[.cancel], lag, m', _, e1, ⟨extend e1, e3, ?_, by rw [hmv, ownMoves_append]; simpa [ownMoves] using h.moves⟩, .inl (by simp), fun _ => rfl, by simp⟩
        rcases e4 with ⟨e4, e5⟩ | ⟨e, e4, e5⟩ <;> rw [e5] at e2 <;> simpa [answersFor, taskAt, e4] using e2
      · refine ⟨[], lag, m, sl, rfl, ⟨by simpa using h.reach, slot_cancel_other hM hj h.slot, ?_, by rw [hmv]; simpa using h.moves⟩, .inl (by simp), by simp, by simp⟩
        simpa [answersFor, taskAt, hj] using h.phase
    | start wf =>
      have hta' := taskAt_main hs (by simp) r i
      have e1 : M'.mgr = M.mgr ∧ M'.now = M.now ∧ M'.answers = M.answers := by
        simp only [Sys.step, Option.some.injEq] at hs
        subst hs
        exact ⟨rfl, rfl, rfl⟩
      have hph := h.phase
      refine ⟨[], lag, m, sl, rfl, ⟨by simpa using h.reach, by rw [e1.1]; exact h.slot, ?_, by rw [hmv]; simpa using h.moves⟩, .inl (by simp), by simp, by simp⟩
      have e2 : answersFor job.id M' = answersFor job.id M := by simp [answersFor, e1.2.2]
      rw [e1.2.1, e2]
      rcases hta' with ht | ⟨ht, k, j, ht'⟩
      · rw [ht]; exact hph
      · rw [ht']
        obtain rfl := hjob _ ht'
        rw [ht] at hph
        cases hph
        exact .init k
    | main n b =>
      have hta' := taskAt_main hs (by simp) r i
      have e1 : M'.mgr = M.mgr ∧ M'.now = M.now ∧ M'.answers = M.answers := by
        rcases sys_step_cases hs with ⟨wf, h1, _⟩ | ⟨_, _, ρ₁, ρ₂, h1, _, _, rfl⟩ |
          ⟨_, _, _, ρ₁, t, g', ρ₂, h1, _⟩ | ⟨n, h1, _⟩ | ⟨j, x, h1, _⟩
        all_goals cases h1
        exact ⟨rfl, rfl, rfl⟩
      have hph := h.phase
      refine ⟨[], lag, m, sl, rfl, ⟨by simpa using h.reach, by rw [e1.1]; exact h.slot, ?_, by rw [hmv]; simpa using h.moves⟩, .inl (by simp), by simp, by simp⟩
      have e2 : answersFor job.id M' = answersFor job.id M := by simp [answersFor, e1.2.2]
      rw [e1.2.1, e2]
      rcases hta' with ht | ⟨ht, k, j, ht'⟩
      · rw [ht]; exact hph
      · rw [ht']
        obtain rfl := hjob _ ht'
        rw [ht] at hph
        cases hph
        exact .init k

theorem taskAt_job_keep {M M' : Sys} {a : SysAct} (hs : M.step a = some M') {r i : Nat} {t : SysTask} (h : taskAt M r i = some t) :
    ∃ t', taskAt M' r i = some t' ∧ t'.job = t.job := by
  by_cases hn : ∀ n k b, a ≠ .task n k b
  · rcases taskAt_main hs hn r i with he | ⟨he, _⟩
    · exact ⟨t, he ▸ h, rfl⟩
    · rw [h] at he; cases he
  · have : ∃ n k b, a = .task n k b := by
      cases a with
      | task n k b => exact ⟨n, k, b, rfl⟩
      | _ => exact absurd (by simp) hn
    obtain ⟨n, k, b, rfl⟩ := this
    rcases sys_step_cases hs with ⟨wf, h1, _⟩ | ⟨_, _, ρ₁, ρ₂, h1, _⟩ |
      ⟨_, _, _, ρ₁, u, g', ρ₂, h1, hρ, ht, hmm, rfl⟩ | ⟨n, h1, _⟩ | ⟨j, x, h1, _⟩
    all_goals cases h1
    obtain ⟨t', h1, h2, h3, _⟩ := taskStep_frame hmm
    by_cases hne : r = n ∧ i = k
    · obtain ⟨rfl, rfl⟩ := hne
      have hu : t = u := by
        simp [taskAt, hρ, ht] at h
        exact h.symm
      subst hu
      exact ⟨t', by simp [taskAt, (List.getElem?_eq_some_iff.1 hρ).1, h1, (List.getElem?_eq_some_iff.1 ht).1], h3⟩
    · exact ⟨t, by rw [taskAt_set_ne hρ h1 hne]; exact h, rfl⟩

theorem alone_reach {acts : List SysAct} {M : Sys} (hM : SysReach acts M) (hk : HooksKeepJobs acts) {job : Job} {r i : Nat}
    (hno : NoOther M job.id r i) (hjob : ∀ t, taskAt M r i = some t → t.job = job) :
    ∃ ja lag m sl, AloneInv acts M job r i ja lag m sl := by
  induction acts using List.reverseRecOn generalizing M with
  | nil =>
    simp only [SysReach, runs, Option.some.injEq] at hM
    subst hM
    exact ⟨[], [], _, none, rfl, rfl, .unborn, rfl⟩
  | append_singleton acts a ih =>
    obtain ⟨M0, hm, hs⟩ := runs_snoc.1 hM
    have hno0 := hno.init hm hs
    have hjob0 : ∀ t, taskAt M0 r i = some t → t.job = job := by
      intro t ht
      obtain ⟨t', h1, h2⟩ := taskAt_job_keep hs ht
      rw [← h2]
      exact hjob t' h1
    obtain ⟨ja, lag, m, sl, hi⟩ := ih hm hk.init hno0 hjob0
    obtain ⟨ja', lag', m', sl', _, h1, _⟩ := alone_step hm hk.init hs hno hjob hi
    exact ⟨_, _, _, _, h1⟩

end AstroRun
