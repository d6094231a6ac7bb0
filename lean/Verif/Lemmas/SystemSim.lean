import Verif.Lemmas.System
import Verif.Lemmas.Map

/-! # The engine refines the workflow machine: the simulation -/

namespace AstroRun
open Spec

/-- The task in the workflow machine, thought of as going the way `env` says. -/
def absPc (env : JobEnv) (t : SysTask) : TaskPc :=
  match t.pc with
  | .init => .spawned
  | .finished r => .sending r
  | .sent _ => .done
  | .panicked _ => .panicked
  | _ => .running ((jobRun env t.job).1.drop t.evs.length) (jobRun env t.job).2

/-- A task in the workflow machine, its place given by `F`. -/
def absTask (F : Nat → SysTask → TaskPc) (i : Nat) (t : SysTask) : WfTask := { key := t.key, job := t.job, pc := F i t }

/-- Tasks go the way `E` says. -/
abbrev byEnv (E : Nat → JobEnv) : Nat → SysTask → TaskPc := fun i t => absPc (E i) t

/-- `F` treats new tasks as new. -/
def NewIsSpawned (F : Nat → SysTask → TaskPc) : Prop := ∀ i k j, F i { key := k, job := j } = .spawned

theorem byEnv_new (E : Nat → JobEnv) : NewIsSpawned (byEnv E) := fun _ _ _ => rfl

/-- The run as a state of the workflow machine. -/
def absRun (F : Nat → SysTask → TaskPc) (ρ : SysRun) (reg : List JobId) : WfM :=
  { wf := ρ.wf, pc := ρ.pc, startedAt := ρ.startedAt, state := ρ.state, waiting := ρ.waiting, results := ρ.results,
    chan := ρ.chan, tasks := ρ.tasks.mapIdx fun i t => absTask F i t, registry := reg, trace := ρ.trace,
    received := ρ.received }

/-- `E` is a possible future of all tasks of the run. -/
def Consistent (E : Nat → JobEnv) (ρ : SysRun) : Prop :=
  ∀ (i : Nat) (t : SysTask), ρ.tasks[i]? = some t → t.pc ≠ .init → Fits (E i) t

/-- `reg` is what the table says about the jobs of workflow `w`. -/
def RegOk (w : Id) (reg : List JobId) (g : SigMgr) : Prop :=
  ∀ j : JobId, j.workflow = w → (j ∈ reg ↔ g.signals.contains j = true)

theorem absRun_getElem? (F : Nat → SysTask → TaskPc) (ρ : SysRun) (reg : List JobId) (i : Nat) :
    (absRun F ρ reg).tasks[i]? = (ρ.tasks[i]?).map (absTask F i) := by
  simp [absRun]

/-- Replacing a task. -/
theorem absRun_setTask {F : Nat → SysTask → TaskPc} {ρ : SysRun} {reg : List JobId} {i : Nat} {t t' : SysTask}
    (ht : ρ.tasks[i]? = some t) (hk : t'.key = t.key) (hj : t'.job = t.job) :
    absRun F (ρ.setTask i t') reg = (absRun F ρ reg).setTask i (F i t') := by
  have hlen : i < ρ.tasks.length := (List.getElem?_eq_some_iff.1 ht).1
  unfold SysRun.setTask WfM.setTask absRun
  simp only [WfM.mk.injEq, true_and, and_true]
  apply List.ext_getElem?
  intro n
  rw [List.getElem?_modify, List.getElem?_mapIdx, List.getElem?_mapIdx, List.getElem?_set]
  by_cases h : i = n
  · subst h
    have : ρ.tasks[i] = t := (List.getElem?_eq_some_iff.1 ht).2
    simp [hlen, absTask, hk, hj, this]
  · simp [h]

theorem absPc_eq_setTask {F : Nat → SysTask → TaskPc} {ρ : SysRun} {reg : List JobId} {i : Nat} {t t' : SysTask}
    (ht : ρ.tasks[i]? = some t) (hk : t'.key = t.key) (hj : t'.job = t.job) (hp : F i t' = F i t) :
    absRun F (ρ.setTask i t') reg = absRun F ρ reg := by
  rw [absRun_setTask ht hk hj]
  unfold WfM.setTask
  have : (absRun F ρ reg).tasks.modify i (fun t_1 => { t_1 with pc := F i t' }) = (absRun F ρ reg).tasks := by
    apply List.ext_getElem?
    intro n
    rw [List.getElem?_modify]
    by_cases h : i = n
    · subst h
      rw [absRun_getElem?, ht]
      simp [absTask, hp]
    · simp [h]
  rw [this]

theorem Consistent.of_set {E : Nat → JobEnv} {ρ : SysRun} {i : Nat} {t t' : SysTask} (ht : ρ.tasks[i]? = some t)
    (h : Consistent E (ρ.setTask i t')) (hf : (t'.pc ≠ .init → Fits (E i) t') → t.pc ≠ .init → Fits (E i) t) :
    Consistent E ρ := by
  have hlen : i < ρ.tasks.length := (List.getElem?_eq_some_iff.1 ht).1
  intro n u hu hn
  by_cases he : i = n
  · subst he
    rw [ht] at hu
    cases hu
    refine hf (fun hn' => h i t' ?_ hn') hn
    simp [SysRun.setTask, hlen]
  · refine h n u ?_ hn
    simp [SysRun.setTask, List.getElem?_set, he, hu]

theorem Consistent.at {E : Nat → JobEnv} {ρ : SysRun} {i : Nat} {t t' : SysTask} (ht : ρ.tasks[i]? = some t)
    (h : Consistent E (ρ.setTask i t')) (hn : t'.pc ≠ .init) : Fits (E i) t' := by
  have hlen : i < ρ.tasks.length := (List.getElem?_eq_some_iff.1 ht).1
  exact h i t' (by simp [SysRun.setTask, hlen]) hn

/-! ## Main-task moves -/

/-- The same move in the workflow machine. -/
def MainAct.toWf (now : Time) : MainAct → WfAct
  | .check b => .check b now
  | .spawn => .spawn
  | .recv => .recv now
  | .announce => .announce
  | .complete => .complete

theorem absRun_runJob {F : Nat → SysTask → TaskPc} (hF : NewIsSpawned F) (ρ : SysRun) (reg : List JobId) (e : Id × Job) :
    absRun F (ρ.runJob e) reg = (absRun F ρ reg).runJob e := by
  simp [absRun, SysRun.runJob, WfM.runJob, List.mapIdx_append, absTask, hF _ _ _]

theorem absRun_foldl {F : Nat → SysTask → TaskPc} (hF : NewIsSpawned F) (reg : List JobId) (es : List (Id × Job)) (ρ : SysRun) :
    absRun F (es.foldl SysRun.runJob ρ) reg = es.foldl WfM.runJob (absRun F ρ reg) := by
  induction es generalizing ρ with
  | nil => rfl
  | cons e es ih => simp only [List.foldl_cons]; rw [ih, absRun_runJob hF]

theorem absRun_handle {F : Nat → SysTask → TaskPc} (hF : NewIsSpawned F) (ρ : SysRun) (reg : List JobId) (msg : WfMsg) (now : Time) :
    absRun F (ρ.handle msg now) reg = (absRun F ρ reg).handle msg now := by
  have hl : (absRun F ρ reg).book msg = absRun F (ρ.book msg) reg := rfl
  unfold SysRun.handle WfM.handle
  simp only
  rw [hl]
  split
  · rename_i hlen
    refine Eq.trans ?_ (if_pos (c := (absRun F (ρ.book msg) reg).results.length =
      (absRun F (ρ.book msg) reg).wf.jobs.length) hlen).symm
    rfl
  · rename_i hlen
    refine Eq.trans ?_ (if_neg (c := (absRun F (ρ.book msg) reg).results.length =
      (absRun F (ρ.book msg) reg).wf.jobs.length) hlen).symm
    unfold WfM.rescan SysRun.rescan
    rw [absRun_foldl hF]
    rfl

theorem absRun_main {F : Nat → SysTask → TaskPc} (hF : NewIsSpawned F) {ρ ρ' : SysRun} {reg : List JobId} {now : Time} {a : MainAct}
    (h : ρ.main now a = some ρ') : (absRun F ρ reg).step (a.toWf now) = some (absRun F ρ' reg) := by
  cases a <;> simp only [SysRun.main] at h <;> simp only [MainAct.toWf, WfM.step]
  case check b =>
    split at h
    · rename_i hpc
      have : (absRun F ρ reg).pc = .init := hpc
      rw [this]
      have hw : (absRun F ρ reg).wf = ρ.wf := rfl
      split at h <;> cases h <;> simp_all [absRun]
    · simp at h
  case spawn =>
    split at h
    · rename_i hpc
      have : (absRun F ρ reg).pc = .setup [] := hpc
      rw [this]; cases h; rfl
    · rename_i e rest hpc
      have : (absRun F ρ reg).pc = .setup (e :: rest) := hpc
      rw [this]; cases h
      simp only [Option.some.injEq]
      unfold SysRun.setupJob WfM.setupJob
      split
      · have := absRun_runJob hF ρ reg e
        simp only [absRun, SysRun.runJob, WfM.runJob, WfM.mk.injEq] at this ⊢
        simp [this]
      · rfl
    · simp at h
  case recv =>
    split at h
    · rename_i msg chan hpc hch
      have key := absRun_handle hF { ρ with chan := chan } reg msg now
      cases ρ
      simp only at hpc hch
      subst hpc hch
      cases h
      exact congrArg some key.symm
    · simp at h
  case announce =>
    split at h
    · rename_i t hpc
      have : (absRun F ρ reg).pc = .finishing t := hpc
      rw [this]; cases h; rfl
    · simp at h
  case complete =>
    split at h
    · rename_i r hpc
      have : (absRun F ρ reg).pc = .completing r := hpc
      rw [this]; cases h; rfl
    · simp at h

theorem foldl_runJob_tasks (es : List (Id × Job)) (ρ : SysRun) :
    es.foldl SysRun.runJob ρ = { ρ with tasks := ρ.tasks ++ es.map fun e => { key := e.1, job := e.2 } } := by
  induction es generalizing ρ with
  | nil => simp
  | cons e es ih => simp [ih, SysRun.runJob]

/-- A main-task move only adds fresh tasks, for jobs the run knows of. -/
theorem main_tasks {ρ ρ' : SysRun} {now : Time} {a : MainAct} (h : ρ.main now a = some ρ')
    (hw : ∀ e ∈ ρ.waiting, e ∈ ρ.wf.jobs) (hs : ∀ rest, ρ.pc = .setup rest → ∀ e ∈ rest, e ∈ ρ.wf.jobs) :
    ρ'.wf = ρ.wf ∧ (∃ es : List (Id × Job), (∀ e ∈ es, e ∈ ρ.wf.jobs) ∧
      ρ'.tasks = ρ.tasks ++ es.map fun e => { key := e.1, job := e.2 }) ∧
    (∀ e ∈ ρ'.waiting, e ∈ ρ.wf.jobs) ∧ (∀ rest, ρ'.pc = .setup rest → ∀ e ∈ rest, e ∈ ρ.wf.jobs) := by
  cases a <;> simp only [SysRun.main] at h
  case check b =>
    split at h
    · split at h <;> cases h
      · exact ⟨rfl, ⟨[], by simp, by simp⟩, hw, by simp⟩
      · refine ⟨rfl, ⟨[], by simp, by simp⟩, hw, ?_⟩
        intro rest hr e he
        simp only [WfPc.setup.injEq] at hr
        subst hr
        exact he
    · simp at h
  case spawn =>
    split at h
    · cases h
      exact ⟨rfl, ⟨[], by simp, by simp⟩, hw, by simp⟩
    · rename_i e rest hpc
      have h1 := hs _ hpc
      cases h
      unfold SysRun.setupJob
      split
      · refine ⟨rfl, ⟨[e], by simpa using h1 e (by simp), rfl⟩, hw, ?_⟩
        intro rest' hr x hx
        simp only [WfPc.setup.injEq] at hr
        subst hr
        exact h1 x (by simp [hx])
      · refine ⟨rfl, ⟨[], by simp, by simp⟩, ?_, ?_⟩
        · intro x hx
          simp only [List.mem_append, List.mem_singleton] at hx
          rcases hx with hx | rfl
          · exact hw x hx
          · exact h1 _ (by simp)
        · intro rest' hr x hx
          simp only [WfPc.setup.injEq] at hr
          subst hr
          exact h1 x (by simp [hx])
    · simp at h
  case recv =>
    split at h
    · rename_i msg chan hpc hch
      cases h
      unfold SysRun.handle
      simp only
      have hw' : ∀ e ∈ ρ.waiting.filter (fun e => !(e.1 == msg.key)), e ∈ ρ.wf.jobs :=
        fun e he => hw e (List.mem_filter.1 he).1
      split
      · exact ⟨rfl, ⟨[], by simp, by simp [SysRun.book]⟩, hw', by simp⟩
      · unfold SysRun.rescan
        rw [foldl_runJob_tasks]
        refine ⟨rfl, ⟨_, ?_, rfl⟩, hw', by simp [SysRun.book, hpc]⟩
        intro e he
        exact hw' e (List.mem_filter.1 he).1
    · simp at h
  case announce =>
    split at h
    · cases h
      exact ⟨rfl, ⟨[], by simp, by simp⟩, hw, by simp⟩
    · simp at h
  case complete =>
    split at h
    · cases h
      exact ⟨rfl, ⟨[], by simp, by simp⟩, hw, by simp⟩
    · simp at h

/-! ## Task moves -/

theorem local_abs {t t' : SysTask} {now : Time} {a : TaskAct} (h : t.step now a = some t') (env : JobEnv) :
    (t.pc = .init ∧ ∃ es k, t'.pc = .emitting es k) ∨ (t.pc ≠ .init ∧ t'.pc ≠ .init ∧ absPc env t' = absPc env t ∧
      (∀ r, t.pc ≠ .finished r ∧ t.pc ≠ .sent r) ∧ (∀ s, t.pc ≠ .panicked s)) := by
  task_cases a h
  · exact .inl ⟨by assumption, _, _, rfl⟩
  · exact .inl ⟨by assumption, _, _, rfl⟩
  all_goals first
    | (rename_i ha
       have ha := active_ne ha
       exact .inr ⟨ha.1, ha.1, rfl, fun r => ⟨ha.2.2.1 r, ha.2.2.2.1 r⟩, ha.2.1⟩)
    | (refine .inr ⟨?_, ?_, ?_, fun r => ⟨?_, ?_⟩, fun s => ?_⟩ <;> simp_all [absPc, SysTask.emitThen, SysTask.stepDone])

theorem SigMgr.noted_contains (g : SigMgr) (e : Event) (j : JobId) :
    (g.noted e).signals.contains j = true ↔
      match e with
      | .runJob id => j = id ∨ g.signals.contains j = true
      | .jobCompleted r => j ≠ r.id ∧ g.signals.contains j = true
      | _ => g.signals.contains j = true := by
  cases e <;> simp only [SigMgr.noted, SigMgr.register, SigMgr.unregister]
  · rename_i id
    rw [AMap.contains_iff, AMap.contains_iff, AMap.mem_keys_insert]
  · rename_i r
    rw [AMap.contains_iff, AMap.contains_iff, AMap.mem_keys_erase, and_comm]

theorem RegOk.noted {w : Id} {reg : List JobId} {g : SigMgr} (h : RegOk w reg g) (e : Event) :
    RegOk w (updateRegistry reg e) (g.noted e) := by
  intro j hj
  have := h j hj
  rw [SigMgr.noted_contains]
  cases e <;> simp_all [updateRegistry]
  exact and_comm

/-- The notifications of other workflows do not matter. -/
theorem RegOk.other {w : Id} {reg : List JobId} {g : SigMgr} {e : Event} (h : RegOk w reg g)
    (h1 : ∀ id, e = .runJob id → id.workflow ≠ w) (h2 : ∀ r, e = .jobCompleted r → r.id.workflow ≠ w) :
    RegOk w reg (g.noted e) := by
  intro j hj
  have := h j hj
  rw [SigMgr.noted_contains]
  cases e <;> simp_all
  · intro hh; exact absurd (hh ▸ hj) (by assumption)
  · intro _ hh; exact absurd (hh ▸ hj) (by assumption)

/-! ## One task move is at most one move of the workflow machine -/

/-- Step ids of a task that is about to look for its signal. -/
def QueuedIn (w : Id) (t : SysTask) : Prop :=
  ∀ s t0, t.pc = .queued s t0 ∨ (∃ es, t.pc = .emitting es (.queued s t0)) → s.id.workflow = w

theorem absPc_mid {env : JobEnv} {t : SysTask} (h1 : t.pc ≠ .init) (h2 : ∀ r, t.pc ≠ .finished r) (h3 : ∀ r, t.pc ≠ .sent r)
    (h4 : ∀ s, t.pc ≠ .panicked s) :
    absPc env t = .running ((jobRun env t.job).1.drop t.evs.length) (jobRun env t.job).2 := by
  unfold absPc
  split <;> simp_all

theorem drop_of_prefix {α : Type} {l l' : List α} {e : α} (h : l ++ [e] <+: l') :
    l'.drop l.length = e :: l'.drop (l ++ [e]).length := by
  obtain ⟨r, rfl⟩ := h
  simp

/-- A task move, seen from the workflow machine. -/
theorem sim_task {g g' : SigMgr} {ρ ρ' : SysRun} {now : Time} {i : Nat} {t : SysTask} {a : TaskAct}
    (ht : ρ.tasks[i]? = some t) (hok : SysOk t) (hq : QueuedIn ρ.wf.id.id t)
    (h : Sys.taskStep g ρ now i t a = some (g', ρ')) {E : Nat → JobEnv} (hE : Consistent E ρ') :
    Consistent E ρ ∧ ∀ reg, RegOk ρ.wf.id.id reg g → ∃ (wa : Option WfAct) (reg' : List JobId),
      RegOk ρ.wf.id.id reg' g' ∧ (∀ n env, wa = some (.begin n env) → env = E n) ∧
      match wa with
      | none => absRun (byEnv E) ρ' reg' = absRun (byEnv E) ρ reg
      | some wa => (absRun (byEnv E) ρ reg).step wa = some (absRun (byEnv E) ρ' reg') := by
  have hget : ∀ reg, (absRun (byEnv E) ρ reg).tasks[i]? = some (absTask (byEnv E) i t) := fun reg => by
    rw [absRun_getElem?, ht]; rfl
  unfold Sys.taskStep at h
  split at h
  · -- emit
    split at h
    · -- leave
      rename_i k hpc
      cases h
      have hk := hok.2.2.2 _ _ hpc
      refine ⟨Consistent.of_set ht hE ?_, ?_⟩
      · intro hf _
        have hf := hf hk.1
        exact ⟨hf.evs, by simp [hpc], by simp [hpc]⟩
      · intro reg hreg
        have hmid : absPc (E i) t = .running ((jobRun (E i) t.job).1.drop t.evs.length) (jobRun (E i) t.job).2 :=
          absPc_mid (by simp [hpc]) (by simp [hpc]) (by simp [hpc]) (by simp [hpc])
        have hf := Consistent.at ht hE hk.1
        cases hk' : k with
        | finished r =>
          subst hk'
          refine ⟨some (.emit i), reg, hreg, by simp, ?_⟩
          have hr := hf.result r (.inl rfl)
          simp only at hr
          rw [absRun_setTask (t' := { t with pc := .finished r }) ht rfl rfl]
          simp only [WfM.step, hget, absTask, byEnv, hmid, hr, List.drop_length]
          rfl
        | init => exact absurd hk' hk.1
        | emitting es k' => exact absurd hk' (hk.2.1 _ _)
        | sent r => exact absurd hk' (hk.2.2.1 _)
        | panicked s => exact absurd hk' (hk.2.2.2 _)
        | _ =>
          refine ⟨none, reg, hreg, by simp, ?_⟩
          refine absPc_eq_setTask ht rfl rfl ?_
          show absPc (E i) _ = absPc (E i) t
          rw [hmid, ← hk', absPc_mid] <;> simp [hk']
    · rename_i e es k hpc
      cases h
      have hk := hok.2.2.2 _ _ hpc
      have hcs : Consistent E (ρ.setTask i { t with pc := .emitting es k, evs := t.evs ++ [e] }) := hE
      refine ⟨Consistent.of_set ht hcs ?_, ?_⟩
      · intro hf _
        have hf := hf (by simp)
        exact ⟨(List.prefix_append _ _).trans hf.evs, by simp [hpc], by simp [hpc]⟩
      · intro reg hreg
        have hmid : absPc (E i) t = .running ((jobRun (E i) t.job).1.drop t.evs.length) (jobRun (E i) t.job).2 :=
          absPc_mid (by simp [hpc]) (by simp [hpc]) (by simp [hpc]) (by simp [hpc])
        have hf := (Consistent.at ht hcs (by simp)).evs
        have hdrop := drop_of_prefix hf
        simp only at hdrop
        refine ⟨some (.emit i), updateRegistry reg e, hreg.noted e, by simp, ?_⟩
        have hci : canIssue reg e = true := by
          have := (hok.2.1 e (by simp [hpc, SysPc.pend])).2.2
          cases e <;> simp_all [canIssue]
        have hreg' : (absRun (byEnv E) ρ reg).registry = reg := rfl
        simp only [WfM.step, hget, absTask, byEnv, hmid, hdrop, hreg', hci, if_true]
        have := absRun_setTask (F := byEnv E) (reg := updateRegistry reg e) ht
          (t' := { t with pc := .emitting es k, evs := t.evs ++ [e] }) rfl rfl
        unfold SysRun.emit
        have h2 : absRun (byEnv E) { ρ.setTask i { t with pc := .emitting es k, evs := t.evs ++ [e] } with
            trace := ρ.trace ++ [(some i, e)] } (updateRegistry reg e) =
            { absRun (byEnv E) (ρ.setTask i { t with pc := .emitting es k, evs := t.evs ++ [e] }) (updateRegistry reg e) with
              trace := ρ.trace ++ [(some i, e)] } := rfl
        rw [h2, this]
        rfl
    · simp at h
  · -- call
    split at h
    · rename_i s t0 hpc
      have hmid : absPc (E i) t = .running ((jobRun (E i) t.job).1.drop t.evs.length) (jobRun (E i) t.job).2 :=
        absPc_mid (by simp [hpc]) (by simp [hpc]) (by simp [hpc]) (by simp [hpc])
      have hw := hq s t0 (.inl hpc)
      have hcont : ∀ reg, RegOk ρ.wf.id.id reg g → canIssue reg (.runnerRun s.toCommand) = (g.getSignal s.id.jobId).isSome := by
        intro reg hreg
        have := hreg s.id.jobId hw
        unfold canIssue
        have hid : s.toCommand.id = s.id := rfl
        simp only [hid]
        rw [Bool.eq_iff_iff, decide_eq_true_iff, this]
        rfl
      split at h
      · rename_i ref hsig
        cases h
        have hcs : Consistent E (ρ.setTask i { t with pc := .calling s t0 ref, sig := {}, stream := {}, evs := t.evs ++ [.runnerRun s.toCommand] }) := hE
        refine ⟨Consistent.of_set ht hcs ?_, ?_⟩
        · intro hf _
          have hf := hf (by simp)
          exact ⟨(List.prefix_append _ _).trans hf.evs, by simp [hpc], by simp [hpc]⟩
        · intro reg hreg
          have hf := (Consistent.at ht hcs (by simp)).evs
          have hdrop := drop_of_prefix hf
          simp only at hdrop
          refine ⟨some (.emit i), reg, hreg, by simp, ?_⟩
          have hci := hcont reg hreg
          rw [hsig] at hci
          have hreg' : (absRun (byEnv E) ρ reg).registry = reg := rfl
          simp only [WfM.step, hget, absTask, byEnv, hmid, hdrop, hreg', hci, Option.isSome_some, if_true]
          have := absRun_setTask (F := byEnv E) (reg := reg) ht
            (t' := { t with pc := .calling s t0 ref, sig := {}, stream := {}, evs := t.evs ++ [.runnerRun s.toCommand] }) rfl rfl
          unfold SysRun.emit
          have h2 : absRun (byEnv E) { ρ.setTask i { t with pc := .calling s t0 ref, sig := {}, stream := {}, evs := t.evs ++ [.runnerRun s.toCommand] } with
              trace := ρ.trace ++ [(some i, .runnerRun s.toCommand)] } reg =
              { absRun (byEnv E) (ρ.setTask i { t with pc := .calling s t0 ref, sig := {}, stream := {}, evs := t.evs ++ [.runnerRun s.toCommand] }) reg with
                trace := ρ.trace ++ [(some i, .runnerRun s.toCommand)] } := rfl
          rw [h2, this]
          rfl
      · rename_i hsig
        cases h
        refine ⟨Consistent.of_set ht hE ?_, ?_⟩
        · intro hf _
          have hf := hf (by simp)
          exact ⟨hf.evs, by simp [hpc], by simp [hpc]⟩
        · intro reg hreg
          have hf := (Consistent.at ht hE (by simp)).panic s rfl
          have hdrop := drop_of_prefix hf
          simp only at hdrop
          refine ⟨some (.emit i), reg, hreg, by simp, ?_⟩
          have hci := hcont reg hreg
          rw [hsig] at hci
          have hreg' : (absRun (byEnv E) ρ reg).registry = reg := rfl
          rw [absRun_setTask (t' := { t with pc := .panicked s }) ht rfl rfl]
          simp only [WfM.step, hget, absTask, byEnv, hmid, hdrop, hreg', hci, Option.isSome_none, Bool.false_eq_true, if_false]
          rfl
    · simp at h
  · -- jobSignal
    split at h
    · rename_i s t0 d ref hpc
      split at h
      · split at h
        · rename_i js hjs js' v hpoll
          cases h
          refine ⟨Consistent.of_set ht hE ?_, ?_⟩
          · intro hf _
            have hf := hf (by simp)
            exact ⟨hf.evs, by simp [hpc], by simp [hpc]⟩
          · intro reg hreg
            refine ⟨none, reg, hreg, by simp, ?_⟩
            refine absPc_eq_setTask ht rfl rfl ?_
            show absPc (E i) _ = absPc (E i) t
            rw [absPc_mid, absPc_mid] <;> simp [hpc]
        · simp at h
      · simp at h
    · simp at h
  · -- send
    split at h
    · rename_i r hpc
      have hab : absPc (E i) t = .sending r := by simp [absPc, hpc]
      have hcons : Consistent E (ρ.setTask i { t with pc := .sent r }) → Consistent E ρ := by
        intro hE
        refine Consistent.of_set ht hE ?_
        intro hf _
        have hf := hf (by simp)
        refine ⟨hf.evs, ?_, by simp [hpc]⟩
        rintro r' (hr' | hr') <;> rw [hpc] at hr' <;> cases hr'
        exact hf.result r (.inr rfl)
      split at h
      · rename_i wr hpc'
        cases h
        refine ⟨hcons hE, ?_⟩
        intro reg hreg
        refine ⟨some (.send i), reg, hreg, by simp, ?_⟩
        rw [absRun_setTask (t' := { t with pc := .sent r }) ht rfl rfl]
        have : (absRun (byEnv E) ρ reg).pc = .returned wr := hpc'
        simp only [WfM.step, hget, absTask, byEnv, hab, this]
        rfl
      · rename_i hnr
        split at h
        · rename_i hcap
          cases h
          refine ⟨hcons hE, ?_⟩
          intro reg hreg
          refine ⟨some (.send i), reg, hreg, by simp, ?_⟩
          have h1 := absRun_setTask (F := byEnv E) (reg := reg) ht (t' := { t with pc := .sent r }) rfl rfl
          have h2 : absRun (byEnv E) { ρ.setTask i { t with pc := .sent r } with chan := ρ.chan ++ [⟨i, t.key, r⟩] } reg =
            { absRun (byEnv E) (ρ.setTask i { t with pc := .sent r }) reg with chan := ρ.chan ++ [⟨i, t.key, r⟩] } := rfl
          rw [h2, h1]
          simp only [WfM.step, hget, absTask, byEnv, hab]
          have hc : (absRun (byEnv E) ρ reg).chan = ρ.chan := rfl
          have hp : (absRun (byEnv E) ρ reg).pc = ρ.pc := rfl
          split
          · rename_i wr hpc'
            rw [hp] at hpc'
            exact absurd hpc' (hnr wr)
          · rw [hc, if_pos hcap]
            rfl
        · simp at h
    · simp at h
  · -- local moves
    cases hs : t.step now a with
    | none => simp [hs] at h
    | some t' =>
      simp only [hs, Option.map_some, Option.some.injEq, Prod.mk.injEq] at h
      obtain ⟨rfl, rfl⟩ := h
      obtain ⟨hjob, hkey, hevs⟩ := SysTask.step_job hs
      rcases local_abs hs (E i) with ⟨hpc, es, k, hpc'⟩ | ⟨hne, hne', hab, hnf, hnp⟩
      · refine ⟨Consistent.of_set ht hE (fun _ hn => absurd hpc hn), ?_⟩
        intro reg hreg
        refine ⟨some (.begin i (E i)), reg, hreg, by rintro n env ⟨⟩; rfl, ?_⟩
        have hz : t.evs = [] := by
          have := hok.1
          simpa [PcInv, SysTask.toJobM, hpc, SysPc.toJobPc, SysPc.pend] using this
        have hmid : byEnv E i t' = _ := absPc_mid (env := E i) (t := t') (by simp [hpc']) (by simp [hpc']) (by simp [hpc']) (by simp [hpc'])
        rw [absRun_setTask ht hkey hjob, hmid, hjob, hevs, hz]
        simp only [WfM.step, hget, absTask, byEnv]
        simp only [absPc, hpc, List.length_nil, List.drop_zero]
      · refine ⟨Consistent.of_set ht hE ?_, fun reg hreg => ⟨none, reg, hreg, by simp, absPc_eq_setTask ht hkey hjob hab⟩⟩
        intro hf _
        have hf := hf hne'
        refine ⟨by simpa [hevs, hjob] using hf.evs, ?_, fun s hs => absurd hs (hnp s)⟩
        rintro r (hr | hr)
        · exact absurd hr (hnf r).1
        · exact absurd hr (hnf r).2

end AstroRun
