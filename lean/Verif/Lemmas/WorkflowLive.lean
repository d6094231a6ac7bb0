import Verif.Lemmas.WorkflowBook
import Verif.Props.Job

/-! # The workflow machine: nothing is lost -/

namespace AstroRun
open Spec

/-- Notifications of the inside of a job run. -/
def Quiet (J : JobId) (es : List Event) : Prop :=
  ∀ e ∈ es, (∀ id, e ≠ .runJob id) ∧ (∀ r, e ≠ .jobCompleted r) ∧ ∀ c, e = .runnerRun c → c.id.jobId = J

/-- Between `on_run_job` and `on_job_completed`. -/
def Registered (J : JobId) (todo : List Event) : Prop :=
  ∃ mid r, r.id = J ∧ Quiet J mid ∧ todo = mid ++ [.jobCompleted r]

/-- What a job run still has to announce. -/
inductive Phase (J : JobId) : List Event → Prop
  | skip : Phase J [.jobState J .skipped]
  | fin : Phase J []
  | fresh {todo} : Registered J todo → Phase J (.runJob J :: todo)
  | reg {todo} : Registered J todo → Phase J todo

theorem quiet_block {J : JobId} {s : Step} {r : StepRunResult} {ev : List Event} (h : StepBlock s r ev)
    (hs : s.id.jobId = J) : Quiet J ev := by
  intro e he
  cases h with
  | refused _ =>
    simp only [List.mem_cons, List.not_mem_nil, or_false] at he
    rcases he with rfl | rfl | rfl | rfl | rfl <;> simp [Step.toCommand, hs]
  | ran logs _ =>
    simp only [List.mem_append, List.mem_cons, List.not_mem_nil, or_false, List.mem_map] at he
    rcases he with ((rfl | rfl | rfl | rfl) | ⟨l, _, rfl⟩) | rfl | rfl <;> simp [Step.toCommand, hs]

theorem phase_jobRun (env : JobEnv) (job : Job)
    (hk : ∀ n s, job.steps[n]? = some s → ((env.step n).before s).id.jobId = job.id) :
    Phase job.id (jobRun env job).1 := by
  obtain ⟨h1, h2⟩ := C14_event_bracket env job
  by_cases hm : Matches job.on env.condition
  · obtain ⟨blocks, hl, htr, _, hid, hb⟩ := h2 hm
    have hlen := (C10_one_result_per_step env job hm).1
    rw [htr]
    refine .fresh ⟨[.jobState job.id .inProgress] ++ blocks.flatten ++
      [.jobState job.id (jobRun env job).2.state], (jobRun env job).2, hid, ?_, by simp⟩
    intro e he
    simp only [List.mem_append, List.mem_singleton, List.mem_flatten] at he
    rcases he with (rfl | ⟨b, hb', heb⟩) | rfl
    · simp
    · obtain ⟨i, hi, rfl⟩ := List.getElem_of_mem hb'
      have hi1 : i < job.steps.length := hl ▸ hi
      obtain ⟨k1, k2⟩ := hb i hi hi1 (hlen ▸ hi1)
      by_cases hsk : (jobRun env job).2.steps[i].state = .skipped
      · rw [k1 hsk] at heb
        simp at heb
        subst heb
        simp
      · exact quiet_block (k2 hsk) (hk i _ (List.getElem?_eq_getElem hi1)) e heb
    · simp
  · rw [h1 hm]; exact .skip

/-- Can still deliver a result. -/
def TaskPc.alive : TaskPc → Bool
  | .spawned | .running _ _ | .sending _ => true
  | .done | .panicked => false

/-- Has nothing more to announce. -/
def TaskPc.announced : TaskPc → Bool
  | .running [] _ | .sending _ => true
  | _ => false

/-- A result for `k` is on its way or there already. -/
def LiveFor (m : WfM) (k : Id) : Prop :=
  k ∈ AMap.keys m.results ∨ (∃ msg ∈ m.chan, msg.key = k) ∨
    ∃ (i : Nat) (t : WfTask), m.tasks[i]? = some t ∧ t.key = k ∧ t.pc.alive = true

/-- A run of `k` has announced its completion and will deliver. -/
def DoneFor (m : WfM) (k : Id) : Prop :=
  k ∈ AMap.keys m.results ∨ (∃ msg ∈ m.chan, msg.key = k) ∨
    ∃ (i : Nat) (t : WfTask), m.tasks[i]? = some t ∧ t.key = k ∧ t.pc.announced = true

theorem DoneFor.live {m : WfM} {k : Id} (h : DoneFor m k) : LiveFor m k := by
  rcases h with h | h | ⟨i, t, h1, h2, h3⟩
  · exact .inl h
  · exact .inr (.inl h)
  · refine .inr (.inr ⟨i, t, h1, h2, ?_⟩)
    unfold TaskPc.announced at h3
    split at h3 <;> simp_all [TaskPc.alive]

/-- The invariant. -/
structure LiveInv (m : WfM) : Prop where
  phase : ∀ (i : Nat) (t : WfTask), m.tasks[i]? = some t → ∀ todo r, t.pc = .running todo r → Phase t.job.id todo
  reg : (∀ r, m.pc ≠ .returned r) → ∀ (i : Nat) (t : WfTask), m.tasks[i]? = some t → ∀ todo r,
    t.pc = .running todo r → Registered t.job.id todo → t.job.id ∈ m.registry ∨ DoneFor m t.key
  live : (∀ r, m.pc ≠ .returned r) → ∀ (i : Nat) (t : WfTask), m.tasks[i]? = some t → LiveFor m t.key

/-- The move's `begin` keeps job ids. -/
def ActKeeps (wf : Workflow) (a : WfAct) : Prop :=
  ∀ i env, a = .begin i env → ∀ k j, (k, j) ∈ wf.jobs → ∀ n s, j.steps[n]? = some s →
    ((env.step n).before s).id.jobId = j.id

theorem setTask_cases {m : WfM} {i : Nat} {t : WfTask} {pc : TaskPc} (ht : m.tasks[i]? = some t) {j : Nat}
    {u : WfTask} (hu : (m.setTask i pc).tasks[j]? = some u) :
    (j = i ∧ u = { t with pc := pc }) ∨ (i ≠ j ∧ m.tasks[j]? = some u) := by
  rw [getElem?_setTask] at hu
  by_cases hij : i = j
  · subst hij; simp [ht] at hu; exact .inl ⟨rfl, hu.symm⟩
  · simp [hij] at hu; exact .inr ⟨hij, hu⟩

theorem setTask_self {m : WfM} {i : Nat} {t : WfTask} {pc : TaskPc} (ht : m.tasks[i]? = some t) :
    (m.setTask i pc).tasks[i]? = some { t with pc := pc } := by simp [getElem?_setTask, ht]

theorem setTask_other {m : WfM} {i j : Nat} {pc : TaskPc} (h : i ≠ j) :
    (m.setTask i pc).tasks[j]? = m.tasks[j]? := by simp [getElem?_setTask, h]

/-- States that differ in nothing a task could notice. -/
theorem LiveInv.congr {m m' : WfM} (h : LiveInv m) (ht : m'.tasks = m.tasks) (hr : m'.registry = m.registry)
    (hc : m'.chan = m.chan) (hk : m'.results = m.results)
    (hp : (∀ r, m'.pc ≠ .returned r) → ∀ r, m.pc ≠ .returned r) : LiveInv m' := by
  refine ⟨by rw [ht]; exact h.phase, fun hn => ?_, fun hn => ?_⟩
  · have := h.reg (hp hn)
    rw [ht, hr]
    intro i t h1 todo r h2 h3
    rcases this i t h1 todo r h2 h3 with h | h
    · exact .inl h
    · right; unfold DoneFor at h ⊢; rw [ht, hc, hk]; exact h
  · have := h.live (hp hn)
    rw [ht]
    intro i t h1
    have := this i t h1
    unfold LiveFor at this ⊢; rw [ht, hc, hk]; exact this

/-- Adding fresh tasks. -/
theorem LiveInv.addTasks {m : WfM} (h : LiveInv m) (es : List (Id × Job)) :
    LiveInv { m with tasks := m.tasks ++ es.map fun e => { key := e.1, job := e.2 } } := by
  have hold : ∀ (i : Nat) (t : WfTask), m.tasks[i]? = some t →
      (m.tasks ++ es.map fun e => ({ key := e.1, job := e.2 } : WfTask))[i]? = some t := by
    intro i t ht
    rw [List.getElem?_append_left (List.getElem?_eq_some_iff.1 ht).1, ht]
  have hnew : ∀ (i : Nat) (t : WfTask),
      (m.tasks ++ es.map fun e => ({ key := e.1, job := e.2 } : WfTask))[i]? = some t →
      m.tasks[i]? = some t ∨ t.pc = .spawned := by
    intro i t ht
    by_cases hi : i < m.tasks.length
    · rw [List.getElem?_append_left hi] at ht; exact .inl ht
    · right
      rw [List.getElem?_append_right (Nat.le_of_not_lt hi), List.getElem?_map] at ht
      cases he : es[i - m.tasks.length]? with
      | none => simp [he] at ht
      | some e => simp [he] at ht; subst ht; rfl
  refine ⟨?_, fun hn => ?_, fun hn => ?_⟩
  · intro i t ht todo r hp
    rcases hnew i t ht with ht | hsp
    · exact h.phase i t ht todo r hp
    · rw [hsp] at hp; simp at hp
  · intro i t ht todo r hp hr
    rcases hnew i t ht with ht | hsp
    · rcases h.reg hn i t ht todo r hp hr with h | h
      · exact .inl h
      · right
        rcases h with h | h | ⟨j, u, h1, h2⟩
        · exact .inl h
        · exact .inr (.inl h)
        · exact .inr (.inr ⟨j, u, hold j u h1, h2⟩)
    · rw [hsp] at hp; simp at hp
  · intro i t ht
    rcases hnew i t ht with ht' | hsp
    · rcases h.live hn i t ht' with h | h | ⟨j, u, h1, h2⟩
      · exact .inl h
      · exact .inr (.inl h)
      · exact .inr (.inr ⟨j, u, hold j u h1, h2⟩)
    · exact .inr (.inr ⟨i, t, ht, rfl, by simp [hsp, TaskPc.alive]⟩)

theorem live_book {m : WfM} {msg : WfMsg} {rest : List WfMsg} (hc : m.chan = msg :: rest) {k : Id}
    {P : WfTask → Prop}
    (h : k ∈ AMap.keys m.results ∨ (∃ x ∈ m.chan, x.key = k) ∨ ∃ (i : Nat) (t : WfTask), m.tasks[i]? = some t ∧ P t) :
    k ∈ AMap.keys ({ m with chan := rest }.book msg).results ∨
      (∃ x ∈ ({ m with chan := rest }.book msg).chan, x.key = k) ∨
      ∃ (i : Nat) (t : WfTask), ({ m with chan := rest }.book msg).tasks[i]? = some t ∧ P t := by
  rcases h with h | ⟨x, hx, hk⟩ | h
  · exact .inl ((AMap.mem_keys_insert _ _ _ _).2 (.inr h))
  · rw [hc] at hx
    rcases List.mem_cons.1 hx with rfl | hx
    · exact .inl ((AMap.mem_keys_insert _ _ _ _).2 (.inl hk.symm))
    · exact .inr (.inl ⟨x, hx, hk⟩)
  · exact .inr (.inr h)

theorem LiveInv.book {m : WfM} (h : LiveInv m) {msg : WfMsg} {rest : List WfMsg} (hc : m.chan = msg :: rest) :
    LiveInv ({ m with chan := rest }.book msg) := by
  refine ⟨h.phase, fun hn => ?_, fun hn => ?_⟩
  · intro i t ht todo r hp hr
    rcases h.reg hn i t ht todo r hp hr with h | h
    · exact .inl h
    · exact .inr (live_book hc (P := fun u => u.key = t.key ∧ u.pc.announced = true) h)
  · intro i t ht
    exact live_book hc (P := fun u => u.key = t.key ∧ u.pc.alive = true) (h.live hn i t ht)

/-- A task moves on without ceasing to be of use. -/
theorem LiveInv.setTask {m : WfM} (h : LiveInv m) {i : Nat} {t : WfTask} (ht : m.tasks[i]? = some t) {pc : TaskPc}
    (hphase : ∀ todo r, pc = .running todo r → Phase t.job.id todo)
    (hreg : (∀ r, m.pc ≠ .returned r) → ∀ todo r, pc = .running todo r → Registered t.job.id todo →
      t.job.id ∈ m.registry ∨ DoneFor m t.key)
    (hlive : pc.alive = true) (hann : t.pc.announced = true → pc.announced = true) :
    LiveInv (m.setTask i pc) := by
  have hdone : ∀ k, DoneFor m k → DoneFor (m.setTask i pc) k := by
    rintro k (h | h | ⟨j, u, h1, h2, h3⟩)
    · exact .inl h
    · exact .inr (.inl h)
    · by_cases hij : i = j
      · subst hij
        rw [ht] at h1; cases h1
        exact .inr (.inr ⟨i, _, setTask_self ht, h2, hann h3⟩)
      · exact .inr (.inr ⟨j, u, by rw [setTask_other hij, h1], h2, h3⟩)
  have hlv : ∀ k, LiveFor m k → LiveFor (m.setTask i pc) k := by
    rintro k (h | h | ⟨j, u, h1, h2, h3⟩)
    · exact .inl h
    · exact .inr (.inl h)
    · by_cases hij : i = j
      · subst hij
        rw [ht] at h1; cases h1
        exact .inr (.inr ⟨i, _, setTask_self ht, h2, hlive⟩)
      · exact .inr (.inr ⟨j, u, by rw [setTask_other hij, h1], h2, h3⟩)
  refine ⟨?_, fun hn => ?_, fun hn => ?_⟩
  · intro j u hu todo r hp
    rcases setTask_cases ht hu with ⟨rfl, rfl⟩ | ⟨_, hu⟩
    · exact hphase todo r hp
    · exact h.phase j u hu todo r hp
  · intro j u hu todo r hp hr
    have : u.job.id ∈ m.registry ∨ DoneFor m u.key := by
      rcases setTask_cases ht hu with ⟨rfl, rfl⟩ | ⟨_, hu⟩
      · exact hreg hn todo r hp hr
      · exact h.reg hn j u hu todo r hp hr
    exact this.imp id (hdone _)
  · intro j u hu
    rcases setTask_cases ht hu with ⟨rfl, rfl⟩ | ⟨_, hu⟩
    · exact hlv _ (h.live hn j t ht)
    · exact hlv _ (h.live hn j u hu)

theorem not_registered_of_returned {m : WfM} {i : Nat} {pc : TaskPc} {reg : List JobId}
    {tr : List (Option Nat × Event)} :
    ({ m.setTask i pc with registry := reg, trace := tr } : WfM).pc = m.pc := rfl

theorem quiet_head {J : JobId} {e : Event} {todo : List Event} (h : Registered J (e :: todo)) :
    (∃ r, e = .jobCompleted r ∧ r.id = J ∧ todo = []) ∨
      (Registered J todo ∧ (∀ id, e ≠ .runJob id) ∧ (∀ r, e ≠ .jobCompleted r) ∧
        ∀ c, e = .runnerRun c → c.id.jobId = J) := by
  obtain ⟨mid, r, h1, h2, h3⟩ := h
  cases mid with
  | nil => simp at h3; exact .inl ⟨r, h3.1, h1, h3.2⟩
  | cons x mid =>
    simp at h3
    obtain ⟨rfl, rfl⟩ := h3
    exact .inr ⟨⟨mid, r, h1, fun y hy => h2 y (List.mem_cons_of_mem _ hy), rfl⟩, h2 e List.mem_cons_self⟩

/-- A task issues a notification. -/
theorem LiveInv.emit {wf : Workflow} {m : WfM} (hi : WfInv wf m) (ho : OwnIds wf) (h : LiveInv m) {i : Nat} {k : Id}
    {job : Job} {e : Event} {todo : List Event} {r : JobRunResult}
    (ht : m.tasks[i]? = some ⟨k, job, .running (e :: todo) r⟩) :
    LiveInv { m.setTask i (.running todo r) with
      registry := updateRegistry m.registry e, trace := m.trace ++ [(some i, e)] } := by
  have hph := h.phase i _ ht _ _ rfl
  have hmem := hi.job i _ ht
  simp only at hph hmem
  have hdone : ∀ k', DoneFor m k' → DoneFor { m.setTask i (.running todo r) with
      registry := updateRegistry m.registry e, trace := m.trace ++ [(some i, e)] } k' := by
    rintro k' (h | h | ⟨j, u, h1, h2, h3⟩)
    · exact .inl h
    · exact .inr (.inl h)
    · by_cases hij : i = j
      · subst hij
        rw [ht] at h1; cases h1
        simp [TaskPc.announced] at h3
      · exact .inr (.inr ⟨j, u, by show (m.setTask i _).tasks[j]? = _; rw [setTask_other hij, h1], h2, h3⟩)
  have hlv : ∀ k', LiveFor m k' → LiveFor { m.setTask i (.running todo r) with
      registry := updateRegistry m.registry e, trace := m.trace ++ [(some i, e)] } k' := by
    rintro k' (h | h | ⟨j, u, h1, h2, h3⟩)
    · exact .inl h
    · exact .inr (.inl h)
    · by_cases hij : i = j
      · subst hij
        rw [ht] at h1; cases h1
        exact .inr (.inr ⟨i, _, setTask_self ht, h2, rfl⟩)
      · exact .inr (.inr ⟨j, u, by show (m.setTask i _).tasks[j]? = _; rw [setTask_other hij, h1], h2, h3⟩)
  have hreg : ∀ (j : Nat) (u : WfTask), m.tasks[j]? = some u → u.job.id ∈ m.registry →
      u.job.id ∈ updateRegistry m.registry e ∨ (∃ r', e = .jobCompleted r' ∧ r'.id = u.job.id) := by
    intro j u hu hr
    cases e <;> simp only [updateRegistry] <;> try exact .inl hr
    case runJob => exact .inl (List.mem_cons_of_mem _ hr)
    case jobCompleted r' =>
      by_cases hj : u.job.id = r'.id
      · exact .inr ⟨r', rfl, hj.symm⟩
      · exact .inl (List.mem_filter.2 ⟨hr, by simp [hj]⟩)
  -- announcing completion leaves the task with nothing to announce
  have hcomp : ∀ r', e = .jobCompleted r' → r'.id = job.id ∧ todo = [] := by
    rintro r' rfl
    generalize hl : Event.jobCompleted r' :: todo = l at hph
    cases hph with
    | skip => simp at hl
    | fin => simp at hl
    | fresh _ => simp at hl
    | reg hr =>
      subst hl
      rcases quiet_head hr with ⟨r'', h1, h2, h3⟩ | ⟨_, _, h2, _⟩
      · cases h1; exact ⟨h2, h3⟩
      · exact absurd rfl (h2 r')
  refine ⟨?_, fun hn => ?_, fun hn => ?_⟩
  · intro j u hu todo' r' hp
    rcases setTask_cases ht hu with ⟨rfl, rfl⟩ | ⟨_, hu⟩
    · simp only [TaskPc.running.injEq] at hp
      obtain ⟨rfl, rfl⟩ := hp
      generalize hl : e :: todo = l at hph
      cases hph with
      | skip => simp at hl; rw [hl.2]; exact .fin
      | fin => simp at hl
      | fresh hr => cases hl; exact .reg hr
      | reg hr =>
        subst hl
        rcases quiet_head hr with ⟨_, _, _, h3⟩ | ⟨h1, _⟩
        · rw [h3]; exact .fin
        · exact .reg h1
    · exact h.phase j u hu todo' r' hp
  · intro j u hu todo' r' hp hrg
    by_cases hce : ∃ r', e = .jobCompleted r' ∧ r'.id = u.job.id
    · -- the job of this task has just been completed by task `i`
      right
      obtain ⟨r'', he, hid⟩ := hce
      obtain ⟨hid', htd⟩ := hcomp r'' he
      have hkey : u.key = k := by
        have hum : (u.key, u.job) ∈ wf.jobs := by
          rcases setTask_cases ht hu with ⟨rfl, rfl⟩ | ⟨_, hu⟩
          · exact hmem
          · exact hi.job j u hu
        exact ho.1 _ _ _ _ hum hmem (by rw [← hid, hid'])
      exact .inr (.inr ⟨i, _, setTask_self ht, hkey.symm, by simp [htd, TaskPc.announced]⟩)
    · rcases setTask_cases ht hu with ⟨rfl, rfl⟩ | ⟨_, hu⟩
      · simp only [TaskPc.running.injEq] at hp
        obtain ⟨rfl, rfl⟩ := hp
        generalize hl : e :: todo = l at hph
        cases hph with
        | skip =>
          simp at hl
          obtain ⟨mid, r, _, _, h3⟩ := hrg
          rw [hl.2] at h3; simp at h3
        | fin => simp at hl
        | fresh hr => cases hl; left; simp [updateRegistry]
        | reg hr =>
          subst hl
          rcases h.reg hn j _ ht _ _ rfl hr with h | h
          · left
            rcases hreg j _ ht h with h | h
            · exact h
            · exact absurd h hce
          · exact .inr (hdone _ h)
      · rcases h.reg hn j u hu todo' r' hp hrg with h | h
        · left
          rcases hreg j u hu h with h | h
          · exact h
          · exact absurd h hce
        · exact .inr (hdone _ h)
  · intro j u hu
    rcases setTask_cases ht hu with ⟨rfl, rfl⟩ | ⟨_, hu⟩
    · exact hlv k (h.live hn j (WfTask.mk k job (.running (e :: todo) r)) ht)
    · exact hlv _ (h.live hn j u hu)

/-- A task panics: another run of the same job has completed. -/
theorem LiveInv.panic {m : WfM} (h : LiveInv m) {i : Nat} {k : Id}
    {job : Job} {e : Event} {todo : List Event} {r : JobRunResult}
    (ht : m.tasks[i]? = some ⟨k, job, .running (e :: todo) r⟩) (hc : canIssue m.registry e = false) :
    LiveInv (m.setTask i .panicked) := by
  have hph := h.phase i _ ht _ _ rfl
  simp only at hph
  have hrg : Registered job.id (e :: todo) ∧ job.id ∉ m.registry := by
    generalize hl : e :: todo = l at hph
    cases hph with
    | skip => simp at hl; rw [hl.1] at hc; simp [canIssue] at hc
    | fin => simp at hl
    | fresh _ => simp at hl; rw [hl.1] at hc; simp [canIssue] at hc
    | reg hr =>
      refine ⟨hr, ?_⟩
      subst hl
      cases e <;> simp [canIssue] at hc
      case runnerRun c =>
      rcases quiet_head hr with ⟨_, h1, _⟩ | ⟨_, _, _, h4⟩
      · simp at h1
      · rw [← h4 c rfl]; exact hc
  have hdone : (∀ r, m.pc ≠ .returned r) → DoneFor m k := fun hn => by
    rcases h.reg hn i _ ht _ _ rfl hrg.1 with h | h
    · exact absurd h hrg.2
    · exact h
  have hd : ∀ k', DoneFor m k' → DoneFor (m.setTask i .panicked) k' := by
    rintro k' (h | h | ⟨j, u, h1, h2, h3⟩)
    · exact .inl h
    · exact .inr (.inl h)
    · by_cases hij : i = j
      · subst hij
        rw [ht] at h1; cases h1
        simp [TaskPc.announced] at h3
      · exact .inr (.inr ⟨j, u, by rw [setTask_other hij, h1], h2, h3⟩)
  refine ⟨?_, fun hn => ?_, fun hn => ?_⟩
  · intro j u hu todo r hp
    rcases setTask_cases ht hu with ⟨rfl, rfl⟩ | ⟨_, hu⟩
    · simp at hp
    · exact h.phase j u hu todo r hp
  · intro j u hu todo r hp hr
    rcases setTask_cases ht hu with ⟨rfl, rfl⟩ | ⟨_, hu⟩
    · simp at hp
    · exact (h.reg hn j u hu todo r hp hr).imp id (hd _)
  · intro j u hu
    have key : ∀ k', LiveFor m k' → LiveFor (m.setTask i .panicked) k' := by
      intro k' hl
      by_cases hk : k' = k
      · subst hk; exact (hd _ (hdone hn)).live
      · rcases hl with h | h | ⟨j, u, h1, h2, h3⟩
        · exact .inl h
        · exact .inr (.inl h)
        · by_cases hij : i = j
          · subst hij
            rw [ht] at h1; cases h1
            exact absurd h2.symm hk
          · exact .inr (.inr ⟨j, u, by rw [setTask_other hij, h1], h2, h3⟩)
    rcases setTask_cases ht hu with ⟨rfl, rfl⟩ | ⟨_, hu⟩
    · exact key k (h.live hn j (WfTask.mk k job (.running (e :: todo) r)) ht)
    · exact key _ (h.live hn j u hu)

theorem LiveInv.step {wf : Workflow} {m m' : WfM} {a : WfAct} (hi : WfInv wf m) (ho : OwnIds wf)
    (hk : ActKeeps wf a) (h : LiveInv m) (hs : m.step a = some m') : LiveInv m' := by
  cases a <;> simp only [WfM.step] at hs
  case check b now =>
    split at hs
    · rename_i hpc
      split at hs <;> (cases hs; exact h.congr rfl rfl rfl rfl (by simp [hpc]))
    · simp at hs
  case spawn =>
    split at hs
    · rename_i hpc
      cases hs
      exact h.congr rfl rfl rfl rfl (by simp [hpc])
    · rename_i e rest hpc
      cases hs
      have hw : LiveInv (m.setupJob e) := by
        unfold WfM.setupJob
        split
        · simpa [WfM.runJob] using h.addTasks [e]
        · exact h.congr rfl rfl rfl rfl (by simp)
      have hp : (m.setupJob e).pc = m.pc := by unfold WfM.setupJob; split <;> rfl
      exact hw.congr rfl rfl rfl rfl (by simp [hp, hpc])
    · simp at hs
  case recv now =>
    split at hs
    · rename_i msg chan hpc hc
      cases hs
      have hb := h.book hc
      unfold WfM.handle
      simp only
      split
      · exact hb.congr rfl rfl rfl rfl (by simp [WfM.book, hpc])
      · rw [rescan_eq]; exact hb.addTasks _
    · simp at hs
  case announce =>
    split at hs
    · rename_i hpc
      cases hs
      exact h.congr rfl rfl rfl rfl (by simp [hpc])
    · simp at hs
  case complete =>
    split at hs
    · rename_i hpc
      cases hs
      exact h.congr rfl rfl rfl rfl (by simp [hpc])
    · simp at hs
  case begin i env =>
    split at hs
    · rename_i k job ht
      cases hs
      have hph := phase_jobRun env job (hk i env rfl k job (hi.job i _ ht))
      refine h.setTask ht ?_ ?_ rfl (by simp [TaskPc.announced])
      · intro todo r hp
        cases hp; exact hph
      · intro _ todo r hp hr
        exfalso
        cases hp
        by_cases hm : Matches job.on env.condition
        · obtain ⟨blocks, _, htr, _⟩ := (C14_event_bracket env job).2 hm
          simp only at hr
          rw [htr] at hr
          rcases quiet_head hr with ⟨_, h1, _⟩ | ⟨_, h2, _⟩
          · simp at h1
          · exact h2 _ rfl
        · have htr := (C14_event_bracket env job).1 hm
          simp only at hr
          rw [htr] at hr
          obtain ⟨mid, r, _, _, h3⟩ := hr
          have := congrArg List.getLast? h3
          simp at this
    · simp at hs
  case emit i =>
    split at hs
    · rename_i k job r ht
      cases hs
      exact h.setTask ht (by simp) (by simp) rfl (by simp [TaskPc.announced])
    · rename_i k job e todo r ht
      split at hs
      · cases hs
        exact h.emit hi ho ht
      · rename_i hc
        cases hs
        exact h.panic ht (by simpa using hc)
    · simp at hs
  case send i =>
    split at hs
    · rename_i k job r ht
      split at hs
      · rename_i r' hpc
        cases hs
        refine ⟨?_, fun hn => absurd hpc (hn r'), fun hn => absurd hpc (hn r')⟩
        intro j u hu todo r hp
        rcases setTask_cases ht hu with ⟨rfl, rfl⟩ | ⟨_, hu⟩
        · simp at hp
        · exact h.phase j u hu todo r hp
      · split at hs
        · cases hs
          have hmove : ∀ (k' : Id) (P : TaskPc → Bool), P .done = false →
              (k' ∈ AMap.keys m.results ∨ (∃ x ∈ m.chan, x.key = k') ∨
                ∃ (i : Nat) (t : WfTask), m.tasks[i]? = some t ∧ t.key = k' ∧ P t.pc = true) →
              (k' ∈ AMap.keys m.results ∨ (∃ x ∈ m.chan ++ [⟨i, k, r⟩], x.key = k') ∨
                ∃ (j : Nat) (t : WfTask), (m.setTask i .done).tasks[j]? = some t ∧ t.key = k' ∧ P t.pc = true) := by
            rintro k' P hP (h | ⟨x, hx, h⟩ | ⟨j, u, h1, h2, h3⟩)
            · exact .inl h
            · exact .inr (.inl ⟨x, List.mem_append_left _ hx, h⟩)
            · by_cases hij : i = j
              · subst hij
                rw [ht] at h1; cases h1
                exact .inr (.inl ⟨⟨i, k, r⟩, by simp, h2⟩)
              · exact .inr (.inr ⟨j, u, by rw [setTask_other hij, h1], h2, h3⟩)
          refine ⟨?_, fun hn => ?_, fun hn => ?_⟩
          · intro j u hu todo r hp
            rcases setTask_cases ht hu with ⟨rfl, rfl⟩ | ⟨_, hu⟩
            · simp at hp
            · exact h.phase j u hu todo r hp
          · intro j u hu todo r' hp hr
            rcases setTask_cases ht hu with ⟨rfl, rfl⟩ | ⟨_, hu⟩
            · simp at hp
            · exact (h.reg hn j u hu todo r' hp hr).imp id (hmove u.key TaskPc.announced rfl)
          · intro j u hu
            rcases setTask_cases ht hu with ⟨rfl, rfl⟩ | ⟨_, hu⟩
            · exact hmove k TaskPc.alive rfl (h.live hn j (WfTask.mk k job (.sending r)) ht)
            · exact hmove u.key TaskPc.alive rfl (h.live hn j u hu)
        · simp at hs
    · simp at hs

theorem live_reach {wf : Workflow} (ho : OwnIds wf) {acts : List WfAct} {m : WfM} (h : WfReach wf acts m)
    (hk : HooksKeepJob wf acts) : LiveInv m := by
  have : WfInv wf m ∧ (HooksKeepJob wf acts → LiveInv m) := by
    refine runs_induct (P := fun acts m => WfInv wf m ∧ (HooksKeepJob wf acts → LiveInv m))
      ⟨WfInv.initial wf, fun _ => ?_⟩ (fun acts a s s' _ hi hs => ⟨hi.1.step hs, fun hk => ?_⟩) h
    · constructor <;> simp [WfM.initial]
    · refine LiveInv.step hi.1 ho ?_ (hi.2 ?_) hs
      · intro i env he
        exact hk i env (by simp [he])
      · intro i env he
        exact hk i env (by simp [he])
  exact this.2 hk

end AstroRun
