import Verif.Lemmas.SystemLive
import Verif.Lemmas.Timing
import Verif.Spec.Fair

/-! # Lemmas: what moves of a run do to its distance from the return -/

namespace AstroRun
open Spec

namespace FairLem

/-- The task is in the loop that waits for the runner. -/
def Cycle : SysPc → Prop
  | .handling _ _ _ | .select _ _ _ _ => True
  | .emitting _ (.handling _ _ _) => True
  | _ => False

/-- How far a task is from its end; the loop that waits for the runner counts once. -/
def rankAt (n : Nat) : SysPc → Nat
  | .emitting es k => match k with
    | .handling _ _ _ => 20 * n + 16
    | k => es.length + 1 + rankAt n k
  | .next => 20 * n + 10
  | .queued _ _ => 20 * n + 18
  | .calling _ _ _ => 20 * n + 17
  | .handling _ _ _ => 20 * n + 16
  | .select _ _ _ _ => 20 * n + 16
  | _ => 0

/-- A task of the workflow machine that is as far from its end. -/
def ranked (_ : Nat) (t : SysTask) : TaskPc :=
  match t.pc with
  | .init => .spawned
  | .finished r => .sending r
  | .sent _ => .done
  | .panicked _ => .panicked
  | pc => .running (List.replicate (rankAt t.rest.length pc) (.runWorkflow default)) default

theorem ranked_new : NewIsSpawned ranked := fun _ _ _ => rfl

/-- How far a run is from its return. -/
def far (ρ : SysRun) : Nat × Nat × Nat × Nat × Nat := wfMeasure (absRun ranked ρ [])

def load (t : SysTask) : Nat × Nat :=
  match t.pc with
  | .init => (1, 0)
  | .finished _ => (0, 1)
  | .sent _ => (0, 0)
  | .panicked _ => (0, 0)
  | pc => (0, rankAt t.rest.length pc + 2)

theorem load_ranked (i : Nat) (t : SysTask) : taskC (absTask ranked i t) = (load t).1 ∧ taskD (absTask ranked i t) = (load t).2 := by
  unfold absTask ranked load taskC taskD
  cases t.pc <;> simp

def Nearer (t' t : SysTask) : Prop := (load t').1 < (load t).1 ∨ (load t').1 = (load t).1 ∧ (load t').2 < (load t).2

theorem taskB_ranked (ρ : SysRun) (i : Nat) {t t' : SysTask} (hk : t'.key = t.key) (h : ∀ r, t.pc ≠ .sent r) (h' : ∀ s, t.pc ≠ .panicked s) :
    taskB (absRun ranked ρ []) (absTask ranked i t') ≤ taskB (absRun ranked ρ []) (absTask ranked i t) := by
  unfold taskB absTask ranked
  cases hp : t.pc with
  | sent r => exact absurd hp (h r)
  | panicked s => exact absurd hp (h' s)
  | _ => cases t'.pc <;> simp [hk]

/-- Task `i` moves on to `t'`. -/
theorem ranked_dec {ρ ρ' : SysRun} {i : Nat} {t t' : SysTask} (ht : ρ.tasks[i]? = some t) (hk : t'.key = t.key)
    (hj : t'.job = t.job) (h1 : ρ'.tasks = ρ.tasks.set i t') (h2 : ρ'.wf = ρ.wf) (h3 : ρ'.pc = ρ.pc) (h4 : ρ'.waiting = ρ.waiting)
    (hb : taskB (absRun ranked ρ []) (absTask ranked i t') + (ρ'.chan.map (msgB (absRun ranked ρ []))).sum ≤
      taskB (absRun ranked ρ []) (absTask ranked i t) + (ρ.chan.map (msgB (absRun ranked ρ []))).sum)
    (hcd : Nearer t' t) : LexLt (far ρ') (far ρ) := by
  have h := absRun_setTask (F := ranked) (reg := []) ht hk hj
  have ht' : (absRun ranked ρ []).tasks[i]? = some (absTask ranked i t) := by rw [absRun_getElem?, ht]; rfl
  have hx : ({ absTask ranked i t with pc := ranked i t' } : WfTask) = absTask ranked i t' := by
    simp [absTask, hk, hj]
  have he : far ρ' = wfMeasure { (absRun ranked ρ []).setTask i (ranked i t') with registry := [], trace := ρ'.trace, chan := ρ'.chan } := by
    rw [← h]
    unfold far wfMeasure absRun SysRun.setTask pcRank taskB msgB isWaiting
    simp only [h1, h2, h3, h4]
  rw [he]
  refine measure_setTask ht' _ _ _ _ ?_ ?_
  · rw [hx]; exact hb
  · rw [hx, (load_ranked i t).1, (load_ranked i t).2, (load_ranked i t').1, (load_ranked i t').2]
    exact hcd

/-- Task `i` changes without coming nearer to its end. -/
theorem ranked_same {ρ ρ' : SysRun} {i : Nat} {t t' : SysTask} (ht : ρ.tasks[i]? = some t) (hk : t'.key = t.key)
    (hj : t'.job = t.job) (h1 : ρ'.tasks = ρ.tasks.set i t') (h2 : ρ'.wf = ρ.wf) (h3 : ρ'.pc = ρ.pc) (h4 : ρ'.waiting = ρ.waiting)
    (h5 : ρ'.chan = ρ.chan) (hr : ranked i t' = ranked i t) : far ρ' = far ρ := by
  have hlen := (List.getElem?_eq_some_iff.1 ht).1
  have hx : absTask ranked i t' = absTask ranked i t := by simp [absTask, hk, hj, hr]
  have htasks : (ρ'.tasks.mapIdx fun i t => absTask ranked i t) = ρ.tasks.mapIdx fun i t => absTask ranked i t := by
    rw [h1]
    apply List.ext_getElem?
    intro n
    rw [List.getElem?_mapIdx, List.getElem?_mapIdx, List.getElem?_set]
    by_cases h : i = n
    · subst h
      have : ρ.tasks[i] = t := (List.getElem?_eq_some_iff.1 ht).2
      simp [hlen, hx, this]
    · simp [h]
  unfold far wfMeasure pcRank taskB msgB isWaiting
  simp only [absRun, htasks, h2, h3, h4, h5]
  rfl

theorem ranked_cycle {i : Nat} {t t' : SysTask} (h : Cycle t.pc) (h' : Cycle t'.pc) (hr : t'.rest = t.rest) : ranked i t' = ranked i t := by
  have key : ∀ t : SysTask, Cycle t.pc → ranked i t =
      .running (List.replicate (20 * t.rest.length + 16) (.runWorkflow default)) default := by
    intro t h
    unfold ranked
    unfold Cycle at h
    split at h
    · rename_i hpc; simp [hpc, rankAt]
    · rename_i hpc; simp [hpc, rankAt]
    · rename_i hpc; simp [hpc, rankAt]
    · exact absurd h id
  rw [key t h, key t' h', hr]

/-- What a move of a job task does to the distance: it gets smaller, or the task stays in its place (the runner wrote something), or
in the loop that waits for the runner. -/
theorem task_far {g g' : SigMgr} {ρ ρ' : SysRun} {now : Time} {i : Nat} {t : SysTask} {a : TaskAct} (hok : SysOk t)
    (ht : ρ.tasks[i]? = some t) (h : Sys.taskStep g ρ now i t a = some (g', ρ')) :
    LexLt (far ρ') (far ρ) ∨
    (far ρ' = far ρ ∧ ρ'.wf = ρ.wf ∧ ρ'.pc = ρ.pc ∧ ρ'.chan = ρ.chan ∧ ∃ t', ρ'.tasks = ρ.tasks.set i t' ∧
      ((t'.pc = t.pc ∧ t'.rest = t.rest ∧ ((∃ l, a = .push l) ∨ ∃ r, a = .endStream r)) ∨
        (Cycle t.pc ∧ Cycle t'.pc))) := by
  obtain ⟨t', h1, h2, h3, ⟨h4, _⟩, h5, _, _, _, h6, hc⟩ := taskStep_frame h
  have dec : ρ'.chan = ρ.chan → (∀ r, t.pc ≠ .sent r) → (∀ s, t.pc ≠ .panicked s) → Nearer t' t → LexLt (far ρ') (far ρ) := by
    intro hch n1 n2 hn
    refine ranked_dec ht h2 h3 h1 h4 h5 h6 ?_ hn
    have := taskB_ranked ρ i h2 n1 n2
    rw [hch]; omega
  have same : ρ'.chan = ρ.chan → ranked i t' = ranked i t → far ρ' = far ρ := fun hch hr =>
    ranked_same ht h2 h3 h1 h4 h5 h6 hch hr
  rcases hc with ⟨e, es, k, hpc, rfl, hch⟩ | ⟨k, hpc, rfl, hch⟩ | ⟨s, t0, ref, hpc, rfl, hch⟩ | ⟨s, t0, hpc, rfl, hch⟩ |
    ⟨s, t0, d, ref, sg, hpc, rfl, hch⟩ | ⟨r, hpc, rfl, hch⟩ | ⟨hs, hch⟩
  · -- a notification
    by_cases hk : ∃ s t0 ref, k = .handling s t0 ref
    · obtain ⟨s, t0, ref, rfl⟩ := hk
      have c1 : Cycle t.pc := by rw [hpc]; trivial
      exact .inr ⟨same hch (ranked_cycle c1 (by trivial) rfl), h4, h5, hch, _, h1, .inr ⟨c1, by trivial⟩⟩
    · left
      refine dec hch (by simp [hpc]) (by simp [hpc]) (.inr ?_)
      have e1 : ∀ es', rankAt t.rest.length (.emitting es' k) = es'.length + 1 + rankAt t.rest.length k := by
        intro es'
        cases k <;> simp [rankAt]
        exact absurd ⟨_, _, _, rfl⟩ hk
      simp only [load, hpc]
      refine ⟨trivial, ?_⟩
      rw [e1, e1]
      simp only [List.length_cons]
      omega
  · -- the last notification was issued
    obtain ⟨k1, k2, k3, k4⟩ := hok.2.2.2 _ _ hpc
    by_cases hk : ∃ s t0 ref, k = .handling s t0 ref
    · obtain ⟨s, t0, ref, rfl⟩ := hk
      have c1 : Cycle t.pc := by rw [hpc]; trivial
      exact .inr ⟨same hch (ranked_cycle c1 (by trivial) rfl), h4, h5, hch, _, h1, .inr ⟨c1, by trivial⟩⟩
    · left
      refine dec hch (by simp [hpc]) (by simp [hpc]) (.inr ?_)
      cases k with
      | init => exact absurd rfl k1
      | emitting es k => exact absurd rfl (k2 _ _)
      | sent r => exact absurd rfl (k3 _)
      | panicked s => exact absurd rfl (k4 _)
      | handling s t0 ref => exact absurd ⟨_, _, _, rfl⟩ hk
      | _ => simp [load, rankAt, hpc]
  · exact .inl (dec hch (by simp [hpc]) (by simp [hpc]) (.inr (by simp [load, rankAt, hpc])))
  · exact .inl (dec hch (by simp [hpc]) (by simp [hpc]) (.inr (by simp [load, hpc])))
  · have c1 : Cycle t.pc := by rw [hpc]; trivial
    exact .inr ⟨same hch (ranked_cycle c1 (by trivial) rfl), h4, h5, hch, _, h1, .inr ⟨c1, by trivial⟩⟩
  · left
    refine ranked_dec ht h2 h3 h1 h4 h5 h6 ?_ (.inr (by simp [load, hpc]))
    rcases hch with hch | hch
    · have := taskB_ranked ρ i (t := t) (t' := { t with pc := .sent r }) rfl (by simp [hpc]) (by simp [hpc])
      rw [hch]; omega
    · rw [hch]
      simp [taskB, absTask, ranked, hpc, msgB]
      omega
  · -- the task's own moves
    have nn : (∀ r, t.pc ≠ .sent r) ∧ ∀ s, t.pc ≠ .panicked s := by
      constructor <;> intro x hx <;> cases a <;> simp [SysTask.step, hx, SysPc.runnerActive] at hs
    have fin : Nearer t' t → LexLt (far ρ') (far ρ) := dec hch nn.1 nn.2
    cases a <;> simp only [SysTask.step] at hs
    case check b =>
      left
      split at hs
      · rename_i hpc
        split at hs <;> cases hs <;> exact fin (.inl (by simp [load, SysTask.emitThen, hpc]))
      · simp at hs
    case nextStep b s =>
      left
      split at hs
      · rename_i st rest hpc hrest
        split at hs
        · cases hs
          exact fin (.inr (by simp [load, SysTask.emitThen, hpc, hrest, rankAt]; omega))
        · cases hs
          exact fin (.inr (by simp [load, SysTask.emitThen, hpc, hrest, rankAt]; omega))
      · simp at hs
    case finishJob =>
      left
      split at hs
      · rename_i hpc hrest
        cases hs
        exact fin (.inr (by simp [load, SysTask.emitThen, hpc, hrest, rankAt]))
      · simp at hs
    case refuse e =>
      left
      split at hs
      · rename_i hpc
        cases hs
        exact fin (.inr (by simp [load, SysTask.stepDone, SysTask.emitThen, hpc, rankAt]; omega))
      · simp at hs
    case accept =>
      left
      split at hs
      · rename_i hpc
        cases hs
        exact fin (.inr (by simp [load, SysTask.emitThen, hpc, rankAt]))
      · simp at hs
    case enter =>
      split at hs
      · rename_i s t0 ref hpc
        cases hs
        have c1 : Cycle t.pc := by rw [hpc]; trivial
        exact .inr ⟨same hch (ranked_cycle c1 (by trivial) rfl), h4, h5, hch, _, h1, .inr ⟨c1, by trivial⟩⟩
      · simp at hs
    case timer =>
      split at hs
      · rename_i s t0 d ref hpc
        split at hs <;> cases hs
        have c1 : Cycle t.pc := by rw [hpc]; trivial
        exact .inr ⟨same hch (ranked_cycle c1 (by trivial) rfl), h4, h5, hch, _, h1, .inr ⟨c1, by trivial⟩⟩
      · simp at hs
    case recv =>
      split at hs
      · rename_i s t0 d ref hpc
        have c1 : Cycle t.pc := by rw [hpc]; trivial
        split at hs
        · cases hs
          exact .inr ⟨same hch (ranked_cycle c1 (by trivial) rfl), h4, h5, hch, _, h1, .inr ⟨c1, by trivial⟩⟩
        · split at hs
          · cases hs
            exact .inl (fin (.inr (by simp [load, SysTask.stepDone, SysTask.emitThen, hpc, rankAt]; omega)))
          · simp at hs
        · simp at hs
      · simp at hs
    case push l =>
      split at hs
      · cases hs
        exact .inr ⟨same hch rfl, h4, h5, hch, _, h1, .inl ⟨rfl, rfl, .inl ⟨l, rfl⟩⟩⟩
      · simp at hs
    case endStream r =>
      split at hs
      · cases hs
        exact .inr ⟨same hch rfl, h4, h5, hch, _, h1, .inl ⟨rfl, rfl, .inr ⟨r, rfl⟩⟩⟩
      · simp at hs
    all_goals simp at hs

/-! ## Inside the loop that waits for the runner -/

/-- Moves to go until the task waits in `select!`. -/
def dist : SysPc → Nat
  | .handling _ _ _ => 1
  | .emitting es _ => es.length + 2
  | _ => 0

def IsSelect : SysPc → Prop
  | .select _ _ _ _ => True
  | _ => False

/-- The kind of move that `workOf` is about. -/
def isWork : TaskAct → Prop
  | .check _ | .emit | .nextStep _ _ | .finishJob | .call | .refuse _ | .accept | .enter | .send => True
  | .timer | .jobSignal | .recv | .push _ | .endStream _ => False

theorem workOf_iff {r i : Nat} {x : SysAct} : workOf r i x ↔ ∃ b, x = .task r i b ∧ isWork b := by
  unfold workOf isWork
  constructor
  · rintro ⟨b, rfl, h⟩
    exact ⟨b, rfl, by cases b <;> exact h⟩
  · rintro ⟨b, rfl, h⟩
    exact ⟨b, rfl, by cases b <;> exact h⟩

theorem poll_ended {s : StreamState} (h : s.result ≠ none) : (s.poll 0).2 ≠ .pending := by
  unfold StreamState.poll
  cases hr : s.result with
  | none => exact absurd hr h
  | some r => split <;> simp

/-- A move of a task that stays in the loop. -/
theorem cycle_move {g g' : SigMgr} {ρ ρ' : SysRun} {now : Time} {i : Nat} {t t' : SysTask} {a : TaskAct} (hok : SysOk t)
    (hlen : i < ρ.tasks.length) (h : Sys.taskStep g ρ now i t a = some (g', ρ')) (ht' : ρ'.tasks[i]? = some t') (hc : Cycle t.pc) (hc' : Cycle t'.pc) :
    (t.stream.result ≠ none → t'.stream.result ≠ none) ∧
    ((∀ l, a ≠ .push l) → t'.stream.logs.length - t'.stream.index ≤ t.stream.logs.length - t.stream.index) ∧
    (a = .recv → t'.stream.logs.length - t'.stream.index < t.stream.logs.length - t.stream.index) ∧
    (¬ IsSelect t.pc → (isWork a → dist t'.pc < dist t.pc) ∧ (¬ isWork a → t'.pc = t.pc)) := by
  have got : ∀ u, ρ'.tasks = ρ.tasks.set i u → t' = u := by
    intro u hu
    rw [hu, List.getElem?_set] at ht'
    simp [hlen] at ht'
    exact ht'.symm
  cases a
  case emit =>
    simp only [Sys.taskStep] at h
    split at h
    · rename_i k hpc
      cases h
      have := got _ rfl
      subst this
      rw [hpc] at hc
      cases k <;> simp only [Cycle] at hc
      simp [hpc, dist, isWork]
    · rename_i e es k hpc
      cases h
      have := got _ rfl
      subst this
      simp [hpc, dist, isWork]
    · simp at h
  case enter =>
    simp only [Sys.taskStep, SysTask.step] at h
    split at h
    · rename_i s t0 ref hpc
      simp only [Option.map_some, Option.some.injEq, Prod.mk.injEq] at h
      obtain ⟨rfl, rfl⟩ := h
      have := got _ rfl
      subst this
      simp [hpc, dist, isWork]
    · simp at h
  case timer =>
    simp only [Sys.taskStep, SysTask.step] at h
    split at h
    · rename_i s t0 d ref hpc
      split at h
      · simp only [Option.map_some, Option.some.injEq, Prod.mk.injEq] at h
        obtain ⟨rfl, rfl⟩ := h
        have := got _ rfl
        subst this
        simp [hpc, IsSelect]
      · simp at h
    · simp at h
  case jobSignal =>
    simp only [Sys.taskStep] at h
    split at h
    · rename_i s t0 d ref hpc
      split at h
      · split at h
        · simp only [Option.some.injEq, Prod.mk.injEq] at h
          obtain ⟨rfl, rfl⟩ := h
          have := got _ rfl
          subst this
          simp [hpc, IsSelect]
        · simp at h
      · simp at h
    · simp at h
  case recv =>
    simp only [Sys.taskStep, SysTask.step] at h
    split at h
    · rename_i s t0 d ref hpc
      split at h
      · rename_i st' l hpoll
        simp only [Option.map_some, Option.some.injEq, Prod.mk.injEq] at h
        obtain ⟨rfl, rfl⟩ := h
        have := got _ rfl
        subst this
        have hp : st'.logs = t.stream.logs ∧ st'.index = t.stream.index + 1 ∧ st'.result = t.stream.result ∧
            t.stream.index < t.stream.logs.length := by
          unfold StreamState.poll at hpoll
          simp only at hpoll
          split at hpoll
          · rename_i l' hl
            simp only [Prod.mk.injEq] at hpoll
            rw [← hpoll.1]
            exact ⟨rfl, rfl, rfl, (List.getElem?_eq_some_iff.1 hl).1⟩
          · split at hpoll <;> simp at hpoll
        obtain ⟨p1, p2, p3, p4⟩ := hp
        simp only [SysTask.emitThen, p1, p2, p3, hpc, IsSelect, not_true_eq_false, false_implies, and_true]
        refine ⟨fun h => h, ?_, ?_⟩ <;> intros <;> omega
      · split at h
        · simp only [Option.map_some, Option.some.injEq, Prod.mk.injEq] at h
          obtain ⟨rfl, rfl⟩ := h
          have := got _ rfl
          subst this
          simp [SysTask.stepDone, SysTask.emitThen, Cycle] at hc'
        · simp at h
      · simp at h
    · simp at h
  case push l =>
    simp only [Sys.taskStep, SysTask.step] at h
    split at h
    · simp only [Option.map_some, Option.some.injEq, Prod.mk.injEq] at h
      obtain ⟨rfl, rfl⟩ := h
      have := got _ rfl
      subst this
      simp [StreamState.push, isWork]
    · simp at h
  case endStream r =>
    simp only [Sys.taskStep, SysTask.step] at h
    split at h
    · simp only [Option.map_some, Option.some.injEq, Prod.mk.injEq] at h
      obtain ⟨rfl, rfl⟩ := h
      have := got _ rfl
      subst this
      simp only [isWork, reduceCtorEq, false_implies, true_and, not_false_eq_true, implies_true, and_true, ne_eq]
      unfold StreamState.endSeq StreamState.endWrite
      split <;> simp
    · simp at h
  all_goals
    exfalso
    unfold Cycle at hc
    split at hc
    all_goals first | exact hc | (rename_i hpc; simp [Sys.taskStep, SysTask.step, hpc] at h)

end FairLem

end AstroRun
