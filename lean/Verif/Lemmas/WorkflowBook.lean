import Verif.Lemmas.Workflow

/-! # Book-keeping invariants of the workflow machine -/

namespace AstroRun
open Spec

/-- Has no dependencies. -/
def isRoot (e : Id × Job) : Bool := e.2.dependsOn.isEmpty

/-- `workflow_state` after the initial loop went over `pre`. -/
def initState (wf : Workflow) (pre : List (Id × Job)) : WorkflowState :=
  if ∀ e ∈ pre, ∀ d ∈ e.2.dependsOn, ∃ x ∈ wf.jobs, x.1 = d then .inProgress else .failed

/-- `workflow_state` after the received results. -/
def stateAfter (wf : Workflow) (received : List WfMsg) : WorkflowState :=
  received.foldl (fun st msg => nextWfState st msg.result) (initState wf wf.jobs)

/-- `workflow_state` after the loop. -/
def closeState (st : WorkflowState) : WorkflowState := if st = .inProgress then .succeeded else st

/-- The part of the state the main task's own moves change, apart from the channel. -/
structure WfView where
  pc : WfPc
  startedAt : Time
  state : WorkflowState
  waiting : List (Id × Job)
  results : AMap Id JobRunResult
  received : List WfMsg
  runs : List (Id × Job)
  trace : List (Option Nat × Event)

/-- The view of a state. -/
def WfM.view (m : WfM) : WfView :=
  ⟨m.pc, m.startedAt, m.state, m.waiting, m.results, m.received, m.tasks.map fun t => (t.key, t.job), m.trace⟩

/-- In the receive loop or after it. -/
structure LoopBook (wf : Workflow) (v : WfView) : Prop where
  roots : ∃ extra, v.runs = wf.jobs.filter isRoot ++ extra ∧ ∀ e ∈ extra, isRoot e = false
  waiting : v.waiting = wf.jobs.filter fun e => !isRoot e && !(v.received.any fun msg => msg.key == e.1)
  head : ∃ rest, v.trace = (none, .runWorkflow wf.id) :: (none, .workflowState wf.id .inProgress) :: rest

/-- After the receive loop. -/
structure DoneBook (wf : Workflow) (v : WfView) : Prop extends LoopBook wf v where
  len : v.results.length = wf.jobs.length
  got : v.received ≠ []
  state : v.state = closeState (stateAfter wf v.received)

/-- The result being returned. -/
def ResultOf (wf : Workflow) (v : WfView) (r : WorkflowRunResult) : Prop :=
  r.id = wf.id ∧ r.state = v.state ∧ r.startedAt = some v.startedAt ∧ r.completedAt.isSome ∧ r.jobs = v.results

/-- The invariant. -/
def PcBook (wf : Workflow) (v : WfView) : Prop :=
  match v.pc with
  | .init => v = (WfM.initial wf).view
  | .setup rest => ∃ pre, wf.jobs = pre ++ rest ∧ v.runs = pre.filter isRoot ∧
      v.waiting = pre.filter (fun e => !isRoot e) ∧ v.results = [] ∧ v.received = [] ∧
      v.state = initState wf pre ∧
      (∃ rest, v.trace = (none, .runWorkflow wf.id) :: (none, .workflowState wf.id .inProgress) :: rest) ∧
      mainEvents v.trace = [.runWorkflow wf.id, .workflowState wf.id .inProgress]
  | .loop => LoopBook wf v ∧ (v.results.length ≠ wf.jobs.length ∨ v.received = []) ∧
      v.state = stateAfter wf v.received ∧
      (∀ e ∈ v.waiting, (∀ d ∈ e.2.dependsOn, d ∈ AMap.keys v.results) → e ∈ v.runs) ∧
      mainEvents v.trace = [.runWorkflow wf.id, .workflowState wf.id .inProgress]
  | .finishing _ => DoneBook wf v ∧ mainEvents v.trace = [.runWorkflow wf.id, .workflowState wf.id .inProgress]
  | .completing r => DoneBook wf v ∧ ResultOf wf v r ∧
      mainEvents v.trace = [.runWorkflow wf.id, .workflowState wf.id .inProgress, .workflowState wf.id r.state]
  | .returned r =>
      (r = skippedWfResult wf.id ∧ v.trace = [(none, .workflowState wf.id .skipped)] ∧ v.runs = [] ∧
        v.received = []) ∨
      (DoneBook wf v ∧ ResultOf wf v r ∧
        mainEvents v.trace = [.runWorkflow wf.id, .workflowState wf.id .inProgress,
          .workflowState wf.id r.state, .workflowCompleted r])

theorem view_setTask (m : WfM) (i : Nat) (pc : TaskPc) : (m.setTask i pc).view = m.view := by
  have : (m.setTask i pc).tasks.map (fun t => (t.key, t.job)) = m.tasks.map (fun t => (t.key, t.job)) := by
    apply List.ext_getElem?
    intro j
    rw [List.getElem?_map, getElem?_setTask, List.getElem?_map]
    by_cases h : i = j
    · subst h; cases m.tasks[i]? <;> simp
    · simp [h]
  unfold WfM.view
  rw [this]
  rfl

theorem LoopBook.emit {wf : Workflow} {v : WfView} (h : LoopBook wf v) (l : List (Option Nat × Event))
    (pc : WfPc) : LoopBook wf { v with trace := v.trace ++ l, pc := pc } := by
  obtain ⟨rest, hr⟩ := h.head
  exact ⟨h.roots, h.waiting, rest ++ l, by simp [hr]⟩

theorem DoneBook.emit {wf : Workflow} {v : WfView} (h : DoneBook wf v) (l : List (Option Nat × Event))
    (pc : WfPc) : DoneBook wf { v with trace := v.trace ++ l, pc := pc } :=
  ⟨h.toLoopBook.emit l pc, h.len, h.got, h.state⟩

/-- A job run issuing a notification. -/
theorem PcBook.taskEmit {wf : Workflow} {v : WfView} (h : PcBook wf v) (hr : v.runs ≠ []) (i : Nat) (e : Event) :
    PcBook wf { v with trace := v.trace ++ [(some i, e)] } := by
  unfold PcBook at h ⊢
  rcases hpc : v.pc with _ | rest | _ | t | r | r <;> simp only [hpc] at h ⊢
  · rw [h] at hr; simp [WfM.view, WfM.initial] at hr
  · obtain ⟨pre, h1, h2, h3, h4, h5, h6, ⟨tl, h7⟩, h8⟩ := h
    exact ⟨pre, h1, h2, h3, h4, h5, h6, ⟨tl ++ [(some i, e)], by simp [h7]⟩, by simpa using h8⟩
  · obtain ⟨h1, h2, h3, h4, h5⟩ := h
    exact ⟨by simpa [hpc] using h1.emit [(some i, e)] v.pc, h2, h3, h4, by simpa using h5⟩
  · exact ⟨by simpa [hpc] using h.1.emit [(some i, e)] v.pc, by simpa using h.2⟩
  · exact ⟨by simpa [hpc] using h.1.emit [(some i, e)] v.pc, h.2.1, by simpa using h.2.2⟩
  · rcases h with ⟨_, _, h, _⟩ | h
    · exact absurd h hr
    · exact .inr ⟨by simpa [hpc] using h.1.emit [(some i, e)] v.pc, h.2.1, by simpa using h.2.2⟩

theorem initState_append (wf : Workflow) (pre : List (Id × Job)) (e : Id × Job) :
    initState wf (pre ++ [e]) =
      if ∀ d ∈ e.2.dependsOn, ∃ x ∈ wf.jobs, x.1 = d then initState wf pre else .failed := by
  unfold initState
  by_cases h : ∀ d ∈ e.2.dependsOn, ∃ x ∈ wf.jobs, x.1 = d
  · rw [if_pos h]
    congr 1
    simp only [List.mem_append, List.mem_singleton, eq_iff_iff]
    constructor
    · intro h1 x hx; exact h1 x (.inl hx)
    · rintro h1 x (hx | rfl)
      · exact h1 x hx
      · exact h
  · rw [if_neg h, if_neg]
    intro h1
    exact h (h1 e (by simp))

theorem all_defined (wf : Workflow) (job : Job) :
    job.dependsOn.all (fun d => wf.jobs.any (fun x => x.1 == d)) = true ↔
      ∀ d ∈ job.dependsOn, ∃ x ∈ wf.jobs, x.1 = d := by
  simp

theorem setupJob_view {wf : Workflow} {m : WfM} (hw : m.wf = wf) (e : Id × Job) (pre : List (Id × Job))
    (hs : m.state = initState wf pre) :
    (m.setupJob e).view =
      { m.view with
        runs := m.view.runs ++ [e].filter isRoot
        waiting := m.waiting ++ [e].filter fun e => !isRoot e
        state := initState wf (pre ++ [e]) } := by
  unfold WfM.setupJob
  by_cases he : e.2.dependsOn.isEmpty
  · have hi : initState wf (pre ++ [e]) = initState wf pre := by
      rw [initState_append, if_pos]
      intro d hd; simp [List.isEmpty_iff.1 he] at hd
    simp [he, WfM.runJob, WfM.view, isRoot, hi, hs]
  · have hst : (if e.2.dependsOn.all (fun d => m.wf.jobs.any (fun x => x.1 == d)) = true then m.state else .failed)
        = initState wf (pre ++ [e]) := by
      rw [initState_append, hw]
      by_cases hd : ∀ d ∈ e.2.dependsOn, ∃ x ∈ wf.jobs, x.1 = d
      · rw [if_pos hd, if_pos ((all_defined _ _).2 hd), hs]
      · rw [if_neg hd, if_neg (fun hc => hd ((all_defined _ _).1 hc))]
    simp only [he, Bool.false_eq_true, if_false, hst]
    simp [WfM.view, isRoot, he]

/-- Filtering out the key just received. -/
theorem waiting_book (jobs : List (Id × Job)) (received : List WfMsg) (msg : WfMsg) :
    (jobs.filter fun e => !isRoot e && !(received.any fun x => x.key == e.1)).filter (fun e => !(e.1 == msg.key)) =
      jobs.filter fun e => !isRoot e && !((received ++ [msg]).any fun x => x.key == e.1) := by
  rw [List.filter_filter]
  congr 1
  funext e
  simp only [List.any_append, List.any_cons, List.any_nil, Bool.or_false, Bool.not_or]
  rw [show (e.1 == msg.key) = (msg.key == e.1) from Bool.beq_comm]
  cases isRoot e <;> cases (msg.key == e.1) <;> cases (received.any fun x => x.key == e.1) <;> rfl

theorem PcBook.step {wf : Workflow} {m m' : WfM} {a : WfAct} (hi : WfInv wf m) (h : PcBook wf m.view)
    (hs : m.step a = some m') : PcBook wf m'.view := by
  have hne : ∀ (i : Nat) (t : WfTask), m.tasks[i]? = some t → m.view.runs ≠ [] := by
    intro i t ht hc
    simp [WfM.view] at hc
    simp [hc] at ht
  cases a <;> simp only [WfM.step] at hs
  case check b now =>
    split at hs
    · rename_i hpc
      have h0 : m.view = (WfM.initial wf).view := by
        have : m.view.pc = .init := hpc
        unfold PcBook at h; simpa only [this] using h
      have hw := hi.same
      simp only [WfM.view, WfM.initial, WfView.mk.injEq] at h0
      obtain ⟨_, h2, h3, h4, h5, h6, h7, h8⟩ := h0
      split at hs
      · cases hs
        left
        exact ⟨by rw [hw], by simp [WfM.view, h8, hw], h7, h6⟩
      · cases hs
        refine ⟨[], by simp [hw], ?_, ?_, h5, h6, ?_, ?_, ?_⟩
        · simpa [WfM.view] using h7
        · simpa [WfM.view] using h4
        · simp [WfM.view, initState]
        · exact ⟨[], by simp [WfM.view, h8, hw]⟩
        · simp [WfM.view, h8, hw, mainEvents]
    · simp at hs
  case spawn =>
    split at hs
    · rename_i hpc
      cases hs
      have hv : m.view.pc = .setup [] := hpc
      unfold PcBook at h; simp only [hv] at h
      obtain ⟨pre, h1, h2, h3, h4, h5, h6, h7, h8⟩ := h
      simp only [List.append_nil] at h1
      subst h1
      refine ⟨⟨⟨[], by simpa [WfM.view] using h2, by simp⟩, ?_, h7⟩, .inr h5, ?_, ?_, h8⟩
      · have : m.received = [] := h5
        simpa [WfM.view, this] using h3
      · have : m.received = [] := h5
        simpa [WfM.view, this, stateAfter] using h6
      · intro e he hd
        exfalso
        have hr : m.results = [] := h4
        have hw : m.waiting = _ := h3
        have he' : e ∈ m.waiting := he
        rw [hw] at he'
        have hnr := (List.mem_filter.1 he').2
        simp only [isRoot, Bool.not_eq_true'] at hnr
        cases hdep : e.2.dependsOn with
        | nil => simp [hdep] at hnr
        | cons d ds =>
          have := hd d (by simp [hdep])
          simp [WfM.view, hr, AMap.keys] at this
    · rename_i e rest hpc
      cases hs
      have hv : m.view.pc = .setup (e :: rest) := hpc
      unfold PcBook at h; simp only [hv] at h
      obtain ⟨pre, h1, h2, h3, h4, h5, h6, h7, h8⟩ := h
      have hsv := setupJob_view hi.same e pre h6
      have hview : ({ m.setupJob e with pc := .setup rest } : WfM).view =
          { (m.setupJob e).view with pc := .setup rest } := rfl
      rw [hview, hsv]
      refine ⟨pre ++ [e], by simp [h1], ?_, ?_, h4, h5, rfl, h7, h8⟩
      · simp only [h2, List.filter_append]
      · have : m.waiting = _ := h3
        simp only [this, List.filter_append]
    · simp at hs
  case recv now =>
    split at hs
    · rename_i msg chan hpc hc
      cases hs
      have hv : m.view.pc = .loop := hpc
      unfold PcBook at h; simp only [hv] at h
      obtain ⟨⟨⟨extra, hr1, hr2⟩, hw, hd⟩, h2, h3, h4, h5⟩ := h
      have hw' : m.waiting = wf.jobs.filter fun e => !isRoot e && !(m.received.any fun msg => msg.key == e.1) := hw
      have hst : nextWfState m.state msg.result = stateAfter wf (m.received ++ [msg]) := by
        have : m.state = stateAfter wf m.received := h3
        rw [this]; simp [stateAfter]
      have hbook : LoopBook wf ({ m with chan := chan }.book msg).view := by
        refine ⟨⟨extra, hr1, hr2⟩, ?_, hd⟩
        show m.waiting.filter _ = _
        rw [hw', waiting_book]
        rfl
      unfold WfM.handle
      simp only
      split
      · rename_i hlen
        refine ⟨⟨⟨hbook.roots, hbook.waiting, hbook.head⟩, ?_, ?_, ?_⟩, h5⟩
        · have hwf : ({ m with chan := chan }.book msg).wf = wf := hi.same
          rw [hwf] at hlen
          exact hlen
        · show m.received ++ [msg] ≠ []
          simp
        · show closeState (nextWfState m.state msg.result) = closeState (stateAfter wf (m.received ++ [msg]))
          rw [hst]
      · rename_i hlen
        rw [rescan_eq]
        have hpc' : ({ m with chan := chan }.book msg).pc = .loop := hpc
        unfold PcBook
        simp only [WfM.view, hpc']
        refine ⟨⟨?_, hbook.waiting, hbook.head⟩, .inl ?_, ?_, ?_, h5⟩
        · refine ⟨extra ++ readyJobs ({ m with chan := chan }.book msg), ?_, ?_⟩
          · have : m.tasks.map (fun t => (t.key, t.job)) = _ := hr1
            have hb : ({ m with chan := chan }.book msg).tasks = m.tasks := rfl
            simp only [List.map_append, List.map_map, hb, this, List.append_assoc]
            congr 2
            exact (List.map_congr_left (fun x _ => rfl)).trans (List.map_id _)
          · intro e he
            rcases List.mem_append.1 he with he | he
            · exact hr2 e he
            · have := (List.mem_filter.1 he).2
              simp only [Bool.and_eq_true, Bool.not_eq_true'] at this
              exact this.1
        · have hwf : ({ m with chan := chan }.book msg).wf = wf := hi.same
          rw [hwf] at hlen
          exact hlen
        · exact hst
        · intro e he hde
          have hmem : e ∈ readyJobs ({ m with chan := chan }.book msg) := by
            refine List.mem_filter.2 ⟨he, ?_⟩
            simp only [Bool.and_eq_true, Bool.not_eq_true']
            refine ⟨?_, (allFinished_iff _ _).2 hde⟩
            have : e ∈ ({ m with chan := chan }.book msg).view.waiting := he
            rw [hbook.waiting] at this
            have := (List.mem_filter.1 this).2
            simp only [Bool.and_eq_true, Bool.not_eq_true'] at this
            exact this.1
          exact List.mem_map.2 ⟨{ key := e.1, job := e.2 }, List.mem_append_right _ (List.mem_map.2 ⟨e, hmem, rfl⟩), rfl⟩
    · simp at hs
  case announce =>
    split at hs
    · rename_i t hpc
      cases hs
      have hv : m.view.pc = .finishing t := hpc
      unfold PcBook at h; simp only [hv] at h
      obtain ⟨h1, h2⟩ := h
      refine ⟨h1.emit _ _, ⟨hi.same ▸ rfl, rfl, rfl, rfl, rfl⟩, ?_⟩
      have : mainEvents m.trace = _ := h2
      simp [WfM.view, this, hi.same]
    · simp at hs
  case complete =>
    split at hs
    · rename_i r hpc
      cases hs
      have hv : m.view.pc = .completing r := hpc
      unfold PcBook at h; simp only [hv] at h
      obtain ⟨h1, h2, h3⟩ := h
      refine .inr ⟨h1.emit _ _, h2, ?_⟩
      have : mainEvents m.trace = _ := h3
      simp [WfM.view, this]
    · simp at hs
  case begin i env =>
    split at hs
    · cases hs; rw [view_setTask]; exact h
    · simp at hs
  case emit i =>
    split at hs
    · cases hs; rw [view_setTask]; exact h
    · rename_i k job e todo r ht
      split at hs
      · cases hs
        have := h.taskEmit (hne i _ ht) i e
        rw [← view_setTask m i (.running todo r)] at this
        exact this
      · cases hs; rw [view_setTask]; exact h
    · simp at hs
  case send i =>
    split at hs
    · split at hs
      · cases hs; rw [view_setTask]; exact h
      · split at hs
        · cases hs
          rename_i k job r _ _ _ _
          have := view_setTask m i .done
          have h' : PcBook wf (m.setTask i .done).view := by rw [this]; exact h
          exact h'
        · simp at hs
    · simp at hs

theorem pcBook_reach {wf : Workflow} {acts : List WfAct} {m : WfM} (h : WfReach wf acts m) :
    WfInv wf m ∧ PcBook wf m.view := by
  refine runs_induct (P := fun _ m => WfInv wf m ∧ PcBook wf m.view) ⟨WfInv.initial wf, ?_⟩
    (fun _ _ _ _ _ hi hs => ⟨hi.1.step hs, hi.2.step hi.1 hs⟩) h
  show PcBook wf _
  unfold PcBook
  rfl

end AstroRun
