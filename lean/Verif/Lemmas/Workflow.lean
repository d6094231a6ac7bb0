import Verif.Spec.Workflow
import Verif.Lemmas.Map
import Verif.Lemmas.Run

namespace AstroRun
open Spec

/-! ## Event projections -/

@[simp] theorem eventsOf_nil (i : Nat) : eventsOf i [] = [] := rfl

@[simp] theorem eventsOf_append (i : Nat) (a b : List (Option Nat × Event)) :
    eventsOf i (a ++ b) = eventsOf i a ++ eventsOf i b := by simp [eventsOf]

@[simp] theorem mainEvents_append (a b : List (Option Nat × Event)) :
    mainEvents (a ++ b) = mainEvents a ++ mainEvents b := by simp [mainEvents]

theorem eventsOf_eq_nil {i : Nat} {tr : List (Option Nat × Event)} (h : ∀ p ∈ tr, p.1 ≠ some i) :
    eventsOf i tr = [] := by
  simp only [eventsOf, List.filterMap_eq_nil_iff]
  intro p hp
  simp [h p hp]

@[simp] theorem eventsOf_single (i j : Nat) (e : Event) :
    eventsOf i [(some j, e)] = if j = i then [e] else [] := by
  by_cases h : j = i <;> simp [eventsOf, h]

@[simp] theorem eventsOf_main (i : Nat) (e : Event) : eventsOf i [(none, e)] = [] := by simp [eventsOf]

@[simp] theorem eventsOf_main2 (i : Nat) (e e' : Event) : eventsOf i [(none, e), (none, e')] = [] := by
  simp [eventsOf]

@[simp] theorem mainEvents_task (i : Nat) (e : Event) : mainEvents [(some i, e)] = [] := by simp [mainEvents]

@[simp] theorem mainEvents_main (e : Event) : mainEvents [(none, e)] = [e] := by simp [mainEvents]

/-! ## Tasks -/

theorem getElem?_setTask (m : WfM) (i j : Nat) (pc : TaskPc) :
    (m.setTask i pc).tasks[j]? =
      if i = j then (m.tasks[j]?).map (fun t => { t with pc := pc }) else m.tasks[j]? := by
  simp only [WfM.setTask, List.getElem?_modify]
  by_cases h : i = j <;> simp [h]

theorem foldl_runJob (es : List (Id × Job)) (m : WfM) :
    es.foldl WfM.runJob m =
      { m with tasks := m.tasks ++ es.map fun e => { key := e.1, job := e.2 } } := by
  induction es generalizing m with
  | nil => simp
  | cons e es ih => simp [ih, WfM.runJob]

/-- The jobs a rescan starts. -/
def readyJobs (m : WfM) : List (Id × Job) :=
  m.waiting.filter fun e => !e.2.dependsOn.isEmpty && allFinished m.results e.2

theorem rescan_eq (m : WfM) :
    m.rescan = { m with tasks := m.tasks ++ (readyJobs m).map fun e => { key := e.1, job := e.2 } } :=
  foldl_runJob _ _

theorem allFinished_iff (rs : AMap Id JobRunResult) (job : Job) :
    allFinished rs job = true ↔ ∀ d ∈ job.dependsOn, d ∈ AMap.keys rs := by
  simp [allFinished, AMap.contains_iff]

/-- What a task has done so far agrees with its state. -/
def TaskOk (tr : List (Option Nat × Event)) (i : Nat) (t : WfTask) : Prop :=
  match t.pc with
  | .spawned => eventsOf i tr = []
  | .running todo r => CompleteRun t.job (eventsOf i tr ++ todo) r
  | .sending r => CompleteRun t.job (eventsOf i tr) r
  | .done => ∃ r, CompleteRun t.job (eventsOf i tr) r
  | .panicked => ∃ todo r, CompleteRun t.job (eventsOf i tr ++ todo) r

/-- A message comes from a finished task and carries its result. -/
def MsgOk (m : WfM) (msg : WfMsg) : Prop :=
  ∃ t, m.tasks[msg.sender]? = some t ∧ t.key = msg.key ∧ t.pc = .done ∧
    CompleteRun t.job (eventsOf msg.sender m.trace) msg.result

/-- Everything run `j` ever does comes before the first thing run `i` does. -/
def Before (j i : Nat) (tr : List (Option Nat × Event)) : Prop :=
  ∀ pre e post, tr = pre ++ (some i, e) :: post → eventsOf j pre = eventsOf j tr

/-- Tasks only grow and messages stay. -/
structure WfInv (wf : Workflow) (m : WfM) : Prop where
  same : m.wf = wf
  job : ∀ (i : Nat) (t : WfTask), m.tasks[i]? = some t → (t.key, t.job) ∈ wf.jobs
  task : ∀ (i : Nat) (t : WfTask), m.tasks[i]? = some t → TaskOk m.trace i t
  chan : ∀ msg ∈ m.chan, MsgOk m msg
  recd : ∀ msg ∈ m.received, MsgOk m msg
  tags : ∀ i e, (some i, e) ∈ m.trace → i < m.tasks.length
  nodup : (AMap.keys m.results).Nodup
  keys : ∀ k, k ∈ AMap.keys m.results ↔ ∃ msg ∈ m.received, msg.key = k
  vals : ∀ k r, (k, r) ∈ m.results → ∃ msg ∈ m.received, msg.key = k ∧ msg.result = r
  waiting : ∀ e ∈ m.waiting, e ∈ wf.jobs
  order : ∀ (i : Nat) (t : WfTask), m.tasks[i]? = some t → ∀ d ∈ t.job.dependsOn,
    ∃ msg ∈ m.received, msg.key = d ∧ Before msg.sender i m.trace
  rest : ∀ rest, m.pc = .setup rest → ∀ e ∈ rest, e ∈ wf.jobs

theorem Before.append_other {j i : Nat} {tr : List (Option Nat × Event)} {l : List (Option Nat × Event)}
    (h : Before j i tr) (hi : ∀ p ∈ l, p.1 ≠ some i) (hj : ∀ p ∈ l, p.1 ≠ some j) : Before j i (tr ++ l) := by
  intro pre e post heq
  rw [eventsOf_append, eventsOf_eq_nil hj, List.append_nil]
  rcases List.append_eq_append_iff.1 heq with ⟨a, h1, h2⟩ | ⟨a, h1, h2⟩
  · exact absurd rfl (hi (some i, e) (by rw [h2]; simp))
  · cases a with
    | nil => exact absurd rfl (hi (some i, e) (by simp at h2; rw [← h2]; simp))
    | cons x xs =>
      simp at h2
      obtain ⟨rfl, _⟩ := h2
      exact h pre e xs h1

theorem Before.append_self {j i : Nat} {tr : List (Option Nat × Event)} {e : Event}
    (h : Before j i tr) (hne : i ≠ j) : Before j i (tr ++ [(some i, e)]) := by
  intro pre e' post heq
  rw [eventsOf_append, eventsOf_single, if_neg hne, List.append_nil]
  rcases List.eq_nil_or_concat post with rfl | ⟨p, x, rfl⟩
  · have := List.append_inj_left' heq rfl
    rw [this]
  · have h1 : tr = pre ++ (some i, e') :: p := by
      have : tr ++ [(some i, e)] = (pre ++ (some i, e') :: p) ++ [x] := by simpa using heq
      exact List.append_inj_left' this rfl
    exact h pre e' p h1

theorem before_of_no_events {j i : Nat} {tr : List (Option Nat × Event)} (h : ∀ e, (some i, e) ∉ tr) :
    Before j i tr := by
  intro pre e post heq
  exact absurd (by rw [heq]; simp) (h e)

/-- Adding fresh tasks keeps the invariant. -/
theorem WfInv.addTasks {wf : Workflow} {m : WfM} (h : WfInv wf m) (es : List (Id × Job))
    (hes : ∀ e ∈ es, e ∈ wf.jobs)
    (hdeps : ∀ e ∈ es, ∀ d ∈ e.2.dependsOn, d ∈ AMap.keys m.results) :
    WfInv wf { m with tasks := m.tasks ++ es.map fun e => { key := e.1, job := e.2 } } := by
  have hold : ∀ (i : Nat) (t : WfTask), m.tasks[i]? = some t →
      (m.tasks ++ es.map fun e => ({ key := e.1, job := e.2 } : WfTask))[i]? = some t := by
    intro i t ht
    rw [List.getElem?_append_left (List.getElem?_eq_some_iff.1 ht).1, ht]
  have hnew : ∀ (i : Nat) (t : WfTask),
      (m.tasks ++ es.map fun e => ({ key := e.1, job := e.2 } : WfTask))[i]? = some t →
      m.tasks[i]? = some t ∨ (m.tasks.length ≤ i ∧ t.pc = .spawned ∧ (t.key, t.job) ∈ es) := by
    intro i t ht
    by_cases hi : i < m.tasks.length
    · rw [List.getElem?_append_left hi] at ht; exact .inl ht
    · right
      rw [List.getElem?_append_right (Nat.le_of_not_lt hi), List.getElem?_map] at ht
      cases he : es[i - m.tasks.length]? with
      | none => simp [he] at ht
      | some e =>
        simp [he] at ht
        subst ht
        exact ⟨Nat.le_of_not_lt hi, rfl, List.mem_of_getElem? he⟩
  have hmsg : ∀ msg, MsgOk m msg →
      MsgOk { m with tasks := m.tasks ++ es.map fun e => { key := e.1, job := e.2 } } msg := by
    rintro msg ⟨t, h1, h2⟩
    exact ⟨t, hold _ _ h1, h2⟩
  have hfresh : ∀ i e, m.tasks.length ≤ i → (some i, e) ∉ m.trace := by
    intro i e hi hm
    exact absurd (h.tags i e hm) (Nat.not_lt.2 hi)
  refine ⟨h.same, ?_, ?_, fun msg hm => hmsg msg (h.chan msg hm), fun msg hm => hmsg msg (h.recd msg hm), ?_,
    h.nodup, h.keys, h.vals, h.waiting, ?_, h.rest⟩
  · intro i t ht
    rcases hnew i t ht with ht | ⟨_, _, ht⟩
    · exact h.job i t ht
    · exact hes _ ht
  · intro i t ht
    rcases hnew i t ht with ht | ⟨hi, hp, ht⟩
    · exact h.task i t ht
    · simp only [TaskOk, hp]
      apply eventsOf_eq_nil
      rintro ⟨o, e⟩ hp' rfl
      exact hfresh i e hi hp'
  · intro i e he
    simp only [List.length_append]
    exact Nat.lt_add_right _ (h.tags i e he)
  · intro i t ht d hd
    rcases hnew i t ht with ht | ⟨hi, hp, ht⟩
    · exact h.order i t ht d hd
    · obtain ⟨msg, hm, hk⟩ := (h.keys d).1 (hdeps _ ht d hd)
      exact ⟨msg, hm, hk, before_of_no_events fun e => hfresh i e hi⟩

/-- Changing only the state of a task keeps the invariant if the new state is right and the task is not one
that has finished. -/
theorem WfInv.setTask {wf : Workflow} {m : WfM} (h : WfInv wf m) {i : Nat} {t : WfTask}
    (ht : m.tasks[i]? = some t) (hnd : t.pc ≠ .done) {pc : TaskPc}
    (hok : TaskOk m.trace i { t with pc := pc }) : WfInv wf (m.setTask i pc) := by
  have hget := getElem?_setTask m i
  have hinv : ∀ (j : Nat) (u : WfTask), (m.setTask i pc).tasks[j]? = some u →
      (i = j ∧ u = { t with pc := pc }) ∨ (i ≠ j ∧ m.tasks[j]? = some u) := by
    intro j u hu
    rw [hget] at hu
    by_cases hij : i = j
    · subst hij; simp [ht] at hu; exact .inl ⟨rfl, hu.symm⟩
    · simp [hij] at hu; exact .inr ⟨hij, hu⟩
  have hmsg : ∀ msg, MsgOk m msg → MsgOk (m.setTask i pc) msg := by
    rintro msg ⟨u, h1, h2, h3, h4⟩
    have hij : i ≠ msg.sender := by
      rintro rfl
      rw [ht] at h1; cases h1; exact hnd h3
    exact ⟨u, by rw [hget, if_neg hij, h1], h2, h3, h4⟩
  refine ⟨h.same, ?_, ?_, fun msg hm => hmsg msg (h.chan msg hm), fun msg hm => hmsg msg (h.recd msg hm), ?_,
    h.nodup, h.keys, h.vals, h.waiting, ?_, h.rest⟩
  · intro j u hu
    rcases hinv j u hu with ⟨rfl, rfl⟩ | ⟨_, hu⟩
    · exact h.job i t ht
    · exact h.job j u hu
  · intro j u hu
    rcases hinv j u hu with ⟨rfl, rfl⟩ | ⟨_, hu⟩
    · exact hok
    · exact h.task j u hu
  · intro j e he
    have := h.tags j e he
    simpa [WfM.setTask] using this
  · intro j u hu d hd
    rcases hinv j u hu with ⟨rfl, rfl⟩ | ⟨_, hu⟩
    · exact h.order i t ht d hd
    · exact h.order j u hu d hd

theorem taskOk_append {tr l : List (Option Nat × Event)} {j : Nat} {u : WfTask} (h : TaskOk tr j u)
    (hl : ∀ p ∈ l, p.1 ≠ some j) : TaskOk (tr ++ l) j u := by
  unfold TaskOk at h ⊢
  rw [eventsOf_append, eventsOf_eq_nil hl, List.append_nil]
  exact h

/-- A running task issuing its next notification. -/
theorem WfInv.emit {wf : Workflow} {m : WfM} (h : WfInv wf m) {i : Nat} {k : Id} {job : Job} {e : Event}
    {todo : List Event} {r : JobRunResult} (ht : m.tasks[i]? = some ⟨k, job, .running (e :: todo) r⟩)
    (reg : List JobId) :
    WfInv wf { m.setTask i (.running todo r) with registry := reg, trace := m.trace ++ [(some i, e)] } := by
  have hget := getElem?_setTask m i
  have hinv : ∀ (j : Nat) (u : WfTask), (m.setTask i (.running todo r)).tasks[j]? = some u →
      (i = j ∧ u = ⟨k, job, .running todo r⟩) ∨ (i ≠ j ∧ m.tasks[j]? = some u) := by
    intro j u hu
    rw [hget] at hu
    by_cases hij : i = j
    · subst hij; simp [ht] at hu; exact .inl ⟨rfl, hu.symm⟩
    · simp [hij] at hu; exact .inr ⟨hij, hu⟩
  have hsend : ∀ msg, MsgOk m msg → i ≠ msg.sender := by
    rintro msg ⟨u, h1, _, h3, _⟩ rfl
    rw [ht] at h1; cases h1; simp at h3
  have hmsg : ∀ msg, MsgOk m msg → MsgOk
      { m.setTask i (.running todo r) with registry := reg, trace := m.trace ++ [(some i, e)] } msg := by
    rintro msg hm
    have hij := hsend msg hm
    obtain ⟨u, h1, h2, h3, h4⟩ := hm
    refine ⟨u, by simp only [hget, if_neg hij, h1], h2, h3, ?_⟩
    simpa [hij] using h4
  refine ⟨h.same, ?_, ?_, fun msg hm => hmsg msg (h.chan msg hm), fun msg hm => hmsg msg (h.recd msg hm), ?_,
    h.nodup, h.keys, h.vals, h.waiting, ?_, h.rest⟩
  · intro j u hu
    rcases hinv j u hu with ⟨rfl, rfl⟩ | ⟨_, hu⟩
    · exact h.job i (WfTask.mk k job (.running (e :: todo) r)) ht
    · exact h.job j u hu
  · intro j u hu
    rcases hinv j u hu with ⟨rfl, rfl⟩ | ⟨hij, hu⟩
    · have := h.task i _ ht
      simp only [TaskOk] at this ⊢
      simpa using this
    · exact taskOk_append (h.task j u hu) (by simpa using hij)
  · intro j e' he
    have hlen : (m.setTask i (.running todo r)).tasks.length = m.tasks.length := by simp [WfM.setTask]
    simp only [hlen]
    rcases List.mem_append.1 he with he | he
    · exact h.tags j e' he
    · simp at he
      rw [he.1]
      exact (List.getElem?_eq_some_iff.1 ht).1
  · intro j u hu d hd
    have key : ∀ u, m.tasks[j]? = some u → d ∈ u.job.dependsOn → ∃ msg ∈ m.received, msg.key = d ∧
        Before msg.sender j (m.trace ++ [(some i, e)]) := by
      intro u hu hd
      obtain ⟨msg, hm, hk, hb⟩ := h.order j u hu d hd
      refine ⟨msg, hm, hk, ?_⟩
      have hij := hsend msg (h.recd msg hm)
      by_cases hj : i = j
      · subst hj; exact hb.append_self hij
      · exact hb.append_other (by simpa using hj) (by simpa using hij)
    rcases hinv j u hu with ⟨rfl, rfl⟩ | ⟨_, hu⟩
    · exact key _ ht hd
    · exact key u hu hd

/-- Notifications of the main task. -/
theorem WfInv.mainEmit {wf : Workflow} {m : WfM} (h : WfInv wf m) (l : List (Option Nat × Event))
    (hl : ∀ p ∈ l, p.1 = none) : WfInv wf { m with trace := m.trace ++ l } := by
  have hno : ∀ j, ∀ p ∈ l, p.1 ≠ some j := fun j p hp => by simp [hl p hp]
  have hmsg : ∀ msg, MsgOk m msg → MsgOk { m with trace := m.trace ++ l } msg := by
    rintro msg ⟨u, h1, h2, h3, h4⟩
    refine ⟨u, h1, h2, h3, ?_⟩
    simpa [eventsOf_eq_nil (hno _)] using h4
  refine ⟨h.same, h.job, fun i t ht => taskOk_append (h.task i t ht) (hno i), fun msg hm => hmsg msg (h.chan msg hm),
    fun msg hm => hmsg msg (h.recd msg hm), ?_, h.nodup, h.keys, h.vals, h.waiting, ?_, h.rest⟩
  · intro i e he
    rcases List.mem_append.1 he with he | he
    · exact h.tags i e he
    · exact absurd rfl (hno i _ he)
  · intro i t ht d hd
    obtain ⟨msg, hm, hk, hb⟩ := h.order i t ht d hd
    exact ⟨msg, hm, hk, hb.append_other (hno i) (hno _)⟩

/-- Changing the main task's own variables other than the waiting list. -/
theorem WfInv.setPc {wf : Workflow} {m : WfM} (h : WfInv wf m) (pc : WfPc) (st : WorkflowState) (t : Time)
    (hr : ∀ rest, pc = .setup rest → ∀ e ∈ rest, e ∈ wf.jobs) :
    WfInv wf { m with pc := pc, state := st, startedAt := t } :=
  ⟨h.same, h.job, h.task, h.chan, h.recd, h.tags, h.nodup, h.keys, h.vals, h.waiting, h.order, hr⟩

theorem WfInv.book {wf : Workflow} {m : WfM} (h : WfInv wf m) {msg : WfMsg} {rest : List WfMsg}
    (hc : m.chan = msg :: rest) : WfInv wf ({ m with chan := rest }.book msg) := by
  have hmsg : ∀ x, MsgOk m x → MsgOk ({ m with chan := rest }.book msg) x := by
    rintro x ⟨u, h1, h2, h3, h4⟩
    exact ⟨u, h1, h2, h3, h4⟩
  refine ⟨h.same, h.job, h.task, ?_, ?_, h.tags, ?_, ?_, ?_, ?_, ?_, h.rest⟩
  · intro x hx
    exact hmsg x (h.chan x (by rw [hc]; exact List.mem_cons_of_mem _ hx))
  · intro x hx
    rcases List.mem_append.1 hx with hx | hx
    · exact hmsg x (h.recd x hx)
    · simp at hx; subst hx
      exact hmsg x (h.chan x (by rw [hc]; exact List.mem_cons_self))
  · exact AMap.nodup_keys_insert h.nodup _ _
  · intro k
    simp only [WfM.book, AMap.mem_keys_insert, h.keys, List.mem_append, List.mem_singleton]
    constructor
    · rintro (rfl | ⟨x, hx, rfl⟩)
      · exact ⟨msg, .inr rfl, rfl⟩
      · exact ⟨x, .inl hx, rfl⟩
    · rintro ⟨x, hx | rfl, rfl⟩
      · exact .inr ⟨x, hx, rfl⟩
      · exact .inl rfl
  · intro k r hr
    simp only [WfM.book, List.mem_append, List.mem_singleton]
    rcases AMap.mem_insert.1 hr with hr | ⟨hr, _⟩
    · cases hr; exact ⟨msg, .inr rfl, rfl, rfl⟩
    · obtain ⟨x, hx, h1⟩ := h.vals k r hr
      exact ⟨x, .inl hx, h1⟩
  · intro e he
    exact h.waiting e (List.mem_filter.1 he).1
  · intro i t ht d hd
    obtain ⟨x, hx, h1⟩ := h.order i t ht d hd
    exact ⟨x, List.mem_append_left _ hx, h1⟩

theorem WfInv.rescan {wf : Workflow} {m : WfM} (h : WfInv wf m) : WfInv wf m.rescan := by
  rw [rescan_eq]
  refine h.addTasks _ (fun e he => h.waiting e (List.mem_filter.1 he).1) fun e he => ?_
  have := (List.mem_filter.1 he).2
  rw [Bool.and_eq_true] at this
  exact (allFinished_iff _ _).1 this.2

theorem WfInv.step {wf : Workflow} {m m' : WfM} {a : WfAct} (h : WfInv wf m) (hs : m.step a = some m') :
    WfInv wf m' := by
  cases a <;> simp only [WfM.step] at hs
  case check b now =>
    split at hs
    · split at hs
      · cases hs
        exact (h.mainEmit _ (by simp)).setPc _ m.state m.startedAt (by simp)
      · cases hs
        refine (h.mainEmit _ (by simp)).setPc _ _ _ ?_
        intro rest hr e he
        cases hr; rw [← h.same]; exact he
    · simp at hs
  case spawn =>
    split at hs
    · cases hs
      exact h.setPc _ m.state m.startedAt (by simp)
    · rename_i e rest hpc
      cases hs
      have hmem := h.rest _ hpc
      have hw : WfInv wf (m.setupJob e) := by
        unfold WfM.setupJob
        split
        · rename_i he
          have := h.addTasks [e] (by simpa using hmem e (by simp))
            (by intro x hx d hd; simp at hx; subst hx; simp [List.isEmpty_iff.1 he] at hd)
          simpa [WfM.runJob] using this
        · exact ⟨h.same, h.job, h.task, h.chan, h.recd, h.tags, h.nodup, h.keys, h.vals, by
            intro x hx
            rcases List.mem_append.1 hx with hx | hx
            · exact h.waiting x hx
            · simp at hx; subst hx; exact hmem _ (by simp), h.order, h.rest⟩
      refine hw.setPc _ (m.setupJob e).state (m.setupJob e).startedAt ?_
      intro r hr x hx
      cases hr; exact hmem x (by simp [hx])
    · simp at hs
  case recv now =>
    split at hs
    · rename_i msg chan hpc hc
      cases hs
      have hb := h.book hc
      unfold WfM.handle
      simp only
      split
      · exact hb.setPc (.finishing now) _ ({ m with chan := chan }.book msg).startedAt (by simp)
      · exact hb.rescan
    · simp at hs
  case announce =>
    split at hs
    · cases hs
      exact (h.mainEmit [_] (by simp)).setPc _ m.state m.startedAt (by simp)
    · simp at hs
  case complete =>
    split at hs
    · cases hs
      exact (h.mainEmit [_] (by simp)).setPc _ m.state m.startedAt (by simp)
    · simp at hs
  case begin i env =>
    split at hs
    · rename_i k job ht
      cases hs
      refine h.setTask ht (by simp) ?_
      have := h.task i _ ht
      simp only [TaskOk] at this ⊢
      exact ⟨env, by simp [this]⟩
    · simp at hs
  case emit i =>
    split at hs
    · rename_i k job r ht
      cases hs
      refine h.setTask ht (by simp) ?_
      have := h.task i _ ht
      simp only [TaskOk] at this ⊢
      simpa using this
    · rename_i k job e todo r ht
      split at hs
      · cases hs
        exact h.emit ht _
      · cases hs
        refine h.setTask ht (by simp) ?_
        have := h.task i _ ht
        simp only [TaskOk] at this ⊢
        exact ⟨_, _, this⟩
    · simp at hs
  case send i =>
    split at hs
    · rename_i k job r ht
      have hset : WfInv wf (m.setTask i .done) := by
        refine h.setTask ht (by simp) ?_
        have := h.task i _ ht
        simp only [TaskOk] at this ⊢
        exact ⟨r, this⟩
      split at hs
      · cases hs; exact hset
      · split at hs
        · cases hs
          refine ⟨hset.same, hset.job, hset.task, ?_, hset.recd, hset.tags, hset.nodup, hset.keys, hset.vals,
            hset.waiting, hset.order, hset.rest⟩
          intro x hx
          rcases List.mem_append.1 hx with hx | hx
          · obtain ⟨u, hu⟩ := hset.chan x hx
            exact ⟨u, hu⟩
          · simp at hx; subst hx
            refine ⟨⟨k, job, .done⟩, ?_, rfl, rfl, ?_⟩
            · simp [getElem?_setTask, ht]
            · have := h.task i _ ht
              simp only [TaskOk] at this
              exact this
        · simp at hs
    · simp at hs

theorem WfInv.initial (wf : Workflow) : WfInv wf (WfM.initial wf) := by
  constructor <;> simp [WfM.initial, AMap.keys]

theorem wfInv_reach {wf : Workflow} {acts : List WfAct} {m : WfM} (h : WfReach wf acts m) : WfInv wf m :=
  runs_induct (P := fun _ m => WfInv wf m) (WfInv.initial wf)
    (fun _ _ _ _ _ hi hs => hi.step hs) h

end AstroRun
