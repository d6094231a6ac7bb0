import Verif.Lemmas.Workflow

/-! # The workflow machine: no schedule goes on forever -/

namespace AstroRun
open Spec

theorem sum_modify {α : Type} (f : α → Nat) (g : α → α) {l : List α} {i : Nat} {t : α} (h : l[i]? = some t) :
    ((l.modify i g).map f).sum + f t = (l.map f).sum + f (g t) := by
  induction l generalizing i with
  | nil => simp at h
  | cons a l ih =>
    cases i with
    | zero => simp at h; subst h; simp; omega
    | succ i =>
      simp at h
      have := ih h
      simp; omega

theorem sum_map_zero {α : Type} (f : α → Nat) {l : List α} (h : ∀ a ∈ l, f a = 0) : (l.map f).sum = 0 := by
  induction l with
  | nil => rfl
  | cons a l ih => simp [h a (by simp), ih fun b hb => h b (by simp [hb])]

/-- Is `k` waiting? -/
def isWaiting (m : WfM) (k : Id) : Bool := m.waiting.any fun e => e.1 == k

/-- How far the main task is. -/
def pcRank (m : WfM) : Nat :=
  match m.pc with
  | .init => m.wf.jobs.length + 6
  | .setup rest => rest.length + 5
  | .loop => 4
  | .finishing _ => 3
  | .completing _ => 2
  | .returned _ => 1

/-- A task that can still send a message whose job is not waiting. -/
def taskB (m : WfM) (t : WfTask) : Nat :=
  match t.pc with
  | .spawned | .running _ _ | .sending _ => if isWaiting m t.key then 0 else 1
  | .done | .panicked => 0

/-- A message whose job is not waiting. -/
def msgB (m : WfM) (x : WfMsg) : Nat := if isWaiting m x.key then 0 else 1

/-- A task not begun. -/
def taskC (t : WfTask) : Nat := match t.pc with
  | .spawned => 1
  | _ => 0

/-- What a task has to do. -/
def taskD (t : WfTask) : Nat := match t.pc with
  | .running todo _ => todo.length + 2
  | .sending _ => 1
  | _ => 0

/-- What a state has to do. -/
def wfMeasure (m : WfM) : Nat × Nat × Nat × Nat × Nat :=
  (pcRank m, m.waiting.length, (m.tasks.map (taskB m)).sum + (m.chan.map (msgB m)).sum,
    (m.tasks.map taskC).sum, (m.tasks.map taskD).sum)

/-- Lexicographic order. -/
def LexLt (x y : Nat × Nat × Nat × Nat × Nat) : Prop :=
  Prod.Lex (· < ·) (Prod.Lex (· < ·) (Prod.Lex (· < ·) (Prod.Lex (· < ·) (· < ·)))) x y

theorem lexLt_wf : WellFounded LexLt :=
  have n : WellFounded (fun a b : Nat => a < b) := Nat.lt_wfRel.wf
  (Prod.lex ⟨_, n⟩ (Prod.lex ⟨_, n⟩ (Prod.lex ⟨_, n⟩ (Prod.lex ⟨_, n⟩ ⟨_, n⟩)))).wf

theorem lex5 {a a' b b' c c' d d' e e' : Nat} (h1 : a' = a) (h2 : b' = b) (h3 : c' ≤ c)
    (h4 : d' = d) (h5 : e' < e) : LexLt (a', b', c', d', e') (a, b, c, d, e) := by
  subst h1 h2 h4
  rcases Nat.lt_or_eq_of_le h3 with h | rfl
  · exact .right _ (.right _ (.left _ _ h))
  · exact .right _ (.right _ (.right _ (.right _ h5)))

theorem lex4 {a a' b b' c c' d d' e e' : Nat} (h1 : a' = a) (h2 : b' = b) (h3 : c' ≤ c)
    (h4 : d' < d) : LexLt (a', b', c', d', e') (a, b, c, d, e) := by
  subst h1 h2
  rcases Nat.lt_or_eq_of_le h3 with h | rfl
  · exact .right _ (.right _ (.left _ _ h))
  · exact .right _ (.right _ (.right _ (.left _ _ h4)))

/-- A task moves on. -/
theorem measure_setTask {m : WfM} {i : Nat} {t : WfTask} (ht : m.tasks[i]? = some t) (pc : TaskPc)
    (reg : List JobId) (tr : List (Option Nat × Event)) (chan : List WfMsg)
    (hb : taskB m { t with pc := pc } + (chan.map (msgB m)).sum ≤ taskB m t + (m.chan.map (msgB m)).sum)
    (hcd : taskC { t with pc := pc } < taskC t ∨
      (taskC { t with pc := pc } = taskC t ∧ taskD { t with pc := pc } < taskD t)) :
    LexLt (wfMeasure { m.setTask i pc with registry := reg, trace := tr, chan := chan }) (wfMeasure m) := by
  have hB := sum_modify (taskB m) (fun t => { t with pc := pc }) ht
  have hC := sum_modify taskC (fun t => { t with pc := pc }) ht
  have hD := sum_modify taskD (fun t => { t with pc := pc }) ht
  have hb' : ((m.tasks.modify i fun t => { t with pc := pc }).map (taskB m)).sum + (chan.map (msgB m)).sum ≤
      (m.tasks.map (taskB m)).sum + (m.chan.map (msgB m)).sum := by omega
  rcases hcd with h | ⟨h, h'⟩
  · exact lex4 rfl rfl hb' (by show ((m.tasks.modify i fun t => { t with pc := pc }).map taskC).sum < _; omega)
  · exact lex5 rfl rfl hb' (by show ((m.tasks.modify i fun t => { t with pc := pc }).map taskC).sum = _; omega)
      (by show ((m.tasks.modify i fun t => { t with pc := pc }).map taskD).sum < _; omega)

theorem measure_step {m m' : WfM} {a : WfAct} (hs : m.step a = some m') : LexLt (wfMeasure m') (wfMeasure m) := by
  cases a <;> simp only [WfM.step] at hs
  case check b now =>
    split at hs
    · rename_i hpc
      split at hs
      · cases hs; exact .left _ _ (by simp [pcRank, hpc])
      · cases hs; exact .left _ _ (by simp [pcRank, hpc])
    · simp at hs
  case spawn =>
    split at hs
    · rename_i hpc; cases hs; exact .left _ _ (by simp [pcRank, hpc])
    · rename_i hpc; cases hs; exact .left _ _ (by simp [pcRank, hpc])
    · simp at hs
  case recv now =>
    split at hs
    · rename_i msg chan hpc hc
      cases hs
      unfold WfM.handle
      simp only
      split
      · exact .left _ _ (by simp [pcRank, hpc])
      · rw [rescan_eq]
        have hr : pcRank { ({ m with chan := chan }.book msg) with
            tasks := ({ m with chan := chan }.book msg).tasks ++
              (readyJobs ({ m with chan := chan }.book msg)).map fun e => { key := e.1, job := e.2 } } = pcRank m := by
          simp [pcRank, WfM.book, hpc]
        unfold wfMeasure
        rw [hr]
        refine .right _ ?_
        by_cases hw : isWaiting m msg.key = true
        · refine .left _ _ ?_
          show (m.waiting.filter _).length < m.waiting.length
          have hle := List.length_filter_le (fun e : Id × Job => !(e.1 == msg.key)) m.waiting
          refine Nat.lt_of_le_of_ne hle fun heq => ?_
          simp only [isWaiting, List.any_eq_true] at hw
          obtain ⟨e, he, hk⟩ := hw
          have := List.length_filter_eq_length_iff.1 heq e he
          simp [hk] at this
        · have hsame : m.waiting.filter (fun e => !(e.1 == msg.key)) = m.waiting := by
            apply List.filter_eq_self.2
            intro e he
            simp only [isWaiting, List.any_eq_true, not_exists, not_and, Bool.not_eq_true] at hw
            simp [hw e he]
          have hiw : isWaiting { ({ m with chan := chan }.book msg) with
              tasks := ({ m with chan := chan }.book msg).tasks ++
                (readyJobs ({ m with chan := chan }.book msg)).map fun e => { key := e.1, job := e.2 } }
              = isWaiting m := by
            funext k
            show (m.waiting.filter (fun e => !(e.1 == msg.key))).any _ = m.waiting.any _
            rw [hsame]
          have hlen : (m.waiting.filter (fun e => !(e.1 == msg.key))).length = m.waiting.length := by rw [hsame]
          have hlen' : ({ m with chan := chan }.book msg).waiting.length = m.waiting.length := hlen
          simp only [hlen']
          refine .right _ (.left _ _ ?_)
          have hB : taskB { ({ m with chan := chan }.book msg) with
              tasks := ({ m with chan := chan }.book msg).tasks ++
                (readyJobs ({ m with chan := chan }.book msg)).map fun e => { key := e.1, job := e.2 } } = taskB m := by
            funext t; unfold taskB; rw [hiw]
          have hM : msgB { ({ m with chan := chan }.book msg) with
              tasks := ({ m with chan := chan }.book msg).tasks ++
                (readyJobs ({ m with chan := chan }.book msg)).map fun e => { key := e.1, job := e.2 } } = msgB m := by
            funext t; unfold msgB; rw [hiw]
          rw [hB, hM, hc]
          have hz : ((readyJobs ({ m with chan := chan }.book msg)).map
              ((taskB m) ∘ fun e => ({ key := e.1, job := e.2 } : WfTask))).sum = 0 := by
            apply sum_map_zero
            intro e he
            have hm : e ∈ m.waiting := by
              have : e ∈ m.waiting.filter _ := (List.mem_filter.1 he).1
              exact (List.mem_filter.1 this).1
            have : isWaiting m e.1 = true := by
              simp only [isWaiting, List.any_eq_true]
              exact ⟨e, hm, by simp⟩
            simp [taskB, this]
          have h1 : msgB m msg = 1 := by simp [msgB, hw]
          have htk : ({ m with chan := chan }.book msg).tasks = m.tasks := rfl
          have hck : ({ m with chan := chan }.book msg).chan = chan := rfl
          simp only [List.map_append, List.map_map, List.sum_append, hz, htk, hck, List.map_cons, List.sum_cons, h1]
          omega
    · simp at hs
  case announce =>
    split at hs
    · rename_i hpc; cases hs; exact .left _ _ (by simp [pcRank, hpc])
    · simp at hs
  case complete =>
    split at hs
    · rename_i hpc; cases hs; exact .left _ _ (by simp [pcRank, hpc])
    · simp at hs
  case begin i env =>
    split at hs
    · rename_i k job ht
      cases hs
      exact measure_setTask ht _ m.registry m.trace m.chan (by simp [taskB]) (.inl (by simp [taskC]))
    · simp at hs
  case emit i =>
    split at hs
    · rename_i k job r ht
      cases hs
      exact measure_setTask ht _ m.registry m.trace m.chan (by simp [taskB]) (.inr (by simp [taskC, taskD]))
    · rename_i k job e todo r ht
      split at hs
      · cases hs
        exact measure_setTask ht _ _ _ m.chan (by simp [taskB]) (.inr (by simp [taskC, taskD]))
      · cases hs
        exact measure_setTask ht _ m.registry m.trace m.chan (by simp [taskB]) (.inr (by simp [taskC, taskD]))
    · simp at hs
  case send i =>
    split at hs
    · rename_i k job r ht
      split at hs
      · cases hs
        exact measure_setTask ht _ m.registry m.trace m.chan (by simp [taskB]) (.inr (by simp [taskC, taskD]))
      · split at hs
        · cases hs
          exact measure_setTask ht .done m.registry m.trace (m.chan ++ [⟨i, k, r⟩])
            (by simp [taskB, msgB]; omega) (.inr (by simp [taskC, taskD]))
        · simp at hs
    · simp at hs

theorem step_wf : WellFounded fun m' m : WfM => ∃ a, m.step a = some m' :=
  Subrelation.wf (fun ⟨_, h⟩ => measure_step h) (InvImage.wf wfMeasure lexLt_wf)

end AstroRun
