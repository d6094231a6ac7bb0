import Verif.Spec.SignalMany
import Verif.Lemmas.Run

/-! # Lemmas: a signal that many tasks wait for -/

namespace AstroRun
open Spec

/-- What holds in every reachable state. -/
structure ManyInv (m : SigMany) : Prop where
  told : ∀ i v, Told m i v → m.sig.isNotified = true ∧ m.sig.signal = some v
  once : ∀ i j v w, Told m i v → Told m j w → i = j
  notified : m.sig.isNotified = true → m.sig.signal.isSome = true
  waker : m.sig.signal.isSome = true → m.sig.waker = none ∨ m.sig.isNotified = false
  set : m.sig.signal.isSome = true → m.sig.waker = none

theorem many_get_set {l : List WaitStatus} {i j : Nat} {a b : WaitStatus} (h : (l.set i a)[j]? = some b) :
    (i = j ∧ b = a) ∨ (i ≠ j ∧ l[j]? = some b) := by
  rw [List.getElem?_set] at h
  split at h
  · rename_i hij
    split at h
    · exact .inl ⟨hij, (Option.some.inj h).symm⟩
    · cases h
  · rename_i hij
    exact .inr ⟨hij, h⟩

theorem many_wake_got {l : List WaitStatus} {k i : Nat} {v : Signal}
    (h : (l.modify k WaitStatus.wake)[i]? = some (.awaiting (.got v))) : l[i]? = some (.awaiting (.got v)) := by
  rw [List.getElem?_modify] at h
  cases hl : l[i]? with
  | none => simp [hl] at h
  | some a =>
    rw [hl] at h
    simp only [Option.map_eq_map, Option.map_some, Option.some.injEq] at h
    split at h
    · cases a with
      | dropped => simp [WaitStatus.wake] at h
      | awaiting s => cases s <;> simp_all [WaitStatus.wake]
    · rw [h]

theorem manyInv_step {m m' : SigMany} {a : ManyAct} (hi : ManyInv m) (h : m.step a = some m') : ManyInv m' := by
  cases a with
  | recv =>
    simp only [SigMany.step, Option.some.injEq] at h
    subst h
    have key : ∀ i v, Told { m with tasks := m.tasks ++ [.awaiting .runnable] } i v → Told m i v := by
      intro i v ht
      simp only [Told, List.getElem?_append] at ht
      split at ht
      · exact ht
      · rename_i hlt
        rcases Nat.eq_zero_or_pos (i - m.tasks.length) with e | e
        · simp [e] at ht
        · rw [List.getElem?_eq_none (by simp; omega)] at ht; cases ht
    exact ⟨fun i v ht => hi.told i v (key i v ht), fun i j v w a b => hi.once i j v w (key _ _ a) (key _ _ b),
      hi.notified, hi.waker, hi.set⟩
  | drop i =>
    have : m' = { m with tasks := m.tasks.set i .dropped } := by
      simp only [SigMany.step] at h
      split at h <;> first | (cases h; done) | exact (Option.some.inj h).symm
    subst this
    have key : ∀ j v, Told { m with tasks := m.tasks.set i .dropped } j v → Told m j v := by
      intro j v ht
      rcases many_get_set ht with ⟨-, e⟩ | ⟨-, e⟩
      · cases e
      · exact e
    exact ⟨fun i v ht => hi.told i v (key i v ht), fun i j v w a b => hi.once i j v w (key _ _ a) (key _ _ b),
      hi.notified, hi.waker, hi.set⟩
  | poll i =>
    simp only [SigMany.step] at h
    split at h
    · rename_i hrun
      simp only [SigState.poll] at h
      split at h
      · rename_i sig v e
        split at e
        · cases e
        rename_i hn
        split at e
        · rename_i u hv
          cases e; cases h
          have hn : m.sig.isNotified = false := by simpa using hn
          have nobody : ∀ j w, ¬ Told m j w := fun j w ht => by have := (hi.told j w ht).1; simp [hn] at this
          refine ⟨?_, ?_, ?_, ?_, ?_⟩
          · intro j w ht
            rcases many_get_set ht with ⟨-, e⟩ | ⟨-, e⟩
            · cases e; exact ⟨rfl, hv⟩
            · exact absurd e (nobody j w)
          · intro j k w w' h1 h2
            rcases many_get_set h1 with ⟨e1, -⟩ | ⟨-, e⟩
            · rcases many_get_set h2 with ⟨e2, -⟩ | ⟨-, e⟩
              · rw [← e1, ← e2]
              · exact absurd e (nobody k w')
            · exact absurd e (nobody j w)
          · intro; simp [hv]
          · intro hs; exact .inl (hi.set (by simpa using hs))
          · intro hs; exact hi.set (by simpa using hs)
        · cases e
      · rename_i sig e
        have key : ∀ j v, Told { sig := sig, tasks := m.tasks.set i (.awaiting .parked) } j v → Told m j v := by
          intro j v ht
          rcases many_get_set ht with ⟨-, e⟩ | ⟨-, e⟩
          · cases e
          · exact e
        split at e
        · cases e; cases h
          exact ⟨fun i v ht => hi.told i v (key i v ht), fun i j v w a b => hi.once i j v w (key _ _ a) (key _ _ b),
            hi.notified, hi.waker, hi.set⟩
        · rename_i hn
          split at e
          · cases e
          · rename_i hv
            cases e; cases h
            refine ⟨fun i v ht => ?_, fun i j v w a b => hi.once i j v w (key _ _ a) (key _ _ b), hi.notified, ?_, ?_⟩
            · have := (hi.told i v (key i v ht)).2
              simp [hv] at this
            · intro hs; simp [hv] at hs
            · intro hs; simp [hv] at hs
    · cases h
  | set v =>
    simp only [SigMany.step, Option.some.injEq] at h
    cases hs : m.sig.signal with
    | some u =>
      have e : m.sig.set v = { state := m.sig, ok := false, woken := none } := by simp [SigState.set, hs]
      rw [e] at h
      subst h
      exact ⟨hi.told, hi.once, hi.notified, hi.waker, hi.set⟩
    | none =>
      have nobody : ∀ j w, ¬ Told m j w := fun j w ht => by have := (hi.told j w ht).2; simp [hs] at this
      have e : m.sig.set v = { state := { m.sig with signal := some v, waker := none }, ok := true, woken := m.sig.waker } := by
        simp [SigState.set, hs]
      rw [e] at h
      subst h
      have key : ∀ j w, ¬ Told { sig := { m.sig with signal := some v, waker := none }, tasks := match m.sig.waker with
          | some i => m.tasks.modify i WaitStatus.wake
          | none => m.tasks } j w := by
        intro j w ht
        simp only [Told] at ht
        split at ht
        · exact nobody j w (many_wake_got ht)
        · exact nobody j w ht
      exact ⟨fun i w ht => absurd ht (key i w), fun i j v w a _ => absurd a (key _ _), fun _ => rfl, fun _ => .inl rfl,
        fun _ => rfl⟩

theorem manyInv_reach {m : SigMany} (h : ManyReach m) : ManyInv m := by
  obtain ⟨acts, h⟩ := h
  refine runs_induct (P := fun _ m => ManyInv m) ?_ (fun _ _ _ _ _ hp hs => manyInv_step hp hs) h
  constructor <;> simp [Told]

/-- With a signal there, no move wakes anybody. -/
theorem many_sleeps_step {m m' : SigMany} {a : ManyAct} {i : Nat} (hs : m.sig.signal.isSome = true) (hp : Sleeps m i)
    (ha : a ≠ .drop i) (h : m.step a = some m') : m'.sig.signal.isSome = true ∧ Sleeps m' i := by
  obtain ⟨u, hu⟩ := Option.isSome_iff_exists.1 hs
  have hlt : i < m.tasks.length := by
    rcases Nat.lt_or_ge i m.tasks.length with h | h
    · exact h
    · have hp' := hp; simp only [Sleeps] at hp'; rw [List.getElem?_eq_none h] at hp'; cases hp'
  cases a with
  | recv =>
    simp only [SigMany.step, Option.some.injEq] at h
    subst h
    exact ⟨hs, by simp only [Sleeps]; rw [List.getElem?_append_left hlt]; exact hp⟩
  | drop j =>
    have hji : j ≠ i := fun e => ha (by rw [e])
    have : m' = { m with tasks := m.tasks.set j .dropped } := by
      simp only [SigMany.step] at h
      split at h <;> first | (cases h; done) | exact (Option.some.inj h).symm
    subst this
    exact ⟨hs, by simp only [Sleeps]; rw [List.getElem?_set_ne hji]; exact hp⟩
  | poll j =>
    simp only [SigMany.step] at h
    split at h
    · rename_i hj
      have hji : j ≠ i := fun e => by subst e; simp only [Sleeps] at hp; rw [hp] at hj; cases hj
      have e : (m.sig.poll j).1.signal = some u := by simp only [SigState.poll]; split <;> (first | exact hu | (split <;> exact hu))
      split at h <;> rename_i e2 <;> rw [e2] at e <;> cases h <;>
        exact ⟨by simp only at e; simp [e], by simp only [Sleeps]; rw [List.getElem?_set_ne hji]; exact hp⟩
    · cases h
  | set v =>
    simp only [SigMany.step, Option.some.injEq] at h
    have e : m.sig.set v = { state := m.sig, ok := false, woken := none } := by simp [SigState.set, hu]
    rw [e] at h
    subst h
    exact ⟨hs, hp⟩

theorem many_sleeps_runs {m : SigMany} {i : Nat} (hs : m.sig.signal.isSome = true) (hp : Sleeps m i) :
    ∀ acts m', runs SigMany.step m acts = some m' → .drop i ∉ acts → m'.sig.signal.isSome = true ∧ Sleeps m' i := by
  intro acts
  induction acts generalizing m with
  | nil => intro m' h _; simp only [runs, Option.some.injEq] at h; subst h; exact ⟨hs, hp⟩
  | cons a acts ih =>
    intro m' h hd
    simp only [runs] at h
    split at h
    · rename_i m1 h1
      simp only [List.mem_cons, not_or] at hd
      obtain ⟨h2, h3⟩ := many_sleeps_step hs hp (fun e => hd.1 e.symm) h1
      exact ih h2 h3 m' h hd.2
    · cases h

/-- `i` was the last to leave its waker, and since then nobody polled. -/
structure LastPoll (m : SigMany) (i : Nat) : Prop where
  fresh : m.sig.isNotified = false
  before : m.sig.signal = none → m.sig.waker = some i ∧ Sleeps m i
  after : m.sig.signal.isSome = true → Runnable m i

theorem lastPoll_step {m m' : SigMany} {a : ManyAct} {i : Nat} (hi : LastPoll m i) (hp : ∀ j, a ≠ .poll j)
    (hd : a ≠ .drop i) (h : m.step a = some m') : LastPoll m' i := by
  have hin : ∀ {s : WaitStatus} {l : List WaitStatus}, m.tasks[i]? = some s → (m.tasks ++ l)[i]? = some s := by
    intro s l h
    have hlt : i < m.tasks.length := by
      rcases Nat.lt_or_ge i m.tasks.length with h' | h'
      · exact h'
      · rw [List.getElem?_eq_none h'] at h; cases h
    rw [List.getElem?_append_left hlt]; exact h
  cases a with
  | recv =>
    simp only [SigMany.step, Option.some.injEq] at h
    subst h
    exact ⟨hi.fresh, fun hs => ⟨(hi.before hs).1, hin (hi.before hs).2⟩, fun hs => hin (hi.after hs)⟩
  | poll j => exact absurd rfl (hp j)
  | drop j =>
    have hji : j ≠ i := fun e => hd (by rw [e])
    have : m' = { m with tasks := m.tasks.set j .dropped } := by
      simp only [SigMany.step] at h
      split at h <;> first | (cases h; done) | exact (Option.some.inj h).symm
    subst this
    refine ⟨hi.fresh, fun hs => ⟨(hi.before hs).1, ?_⟩, fun hs => ?_⟩
    · simp only [Sleeps]; rw [List.getElem?_set_ne hji]; exact (hi.before hs).2
    · simp only [Runnable]; rw [List.getElem?_set_ne hji]; exact hi.after hs
  | set v =>
    simp only [SigMany.step, Option.some.injEq] at h
    cases hs : m.sig.signal with
    | some u =>
      have e : m.sig.set v = { state := m.sig, ok := false, woken := none } := by simp [SigState.set, hs]
      rw [e] at h
      subst h
      exact ⟨hi.fresh, hi.before, hi.after⟩
    | none =>
      obtain ⟨h1, h2⟩ := hi.before hs
      have e : m.sig.set v = { state := { m.sig with signal := some v, waker := none }, ok := true, woken := some i } := by
        simp [SigState.set, hs, h1]
      rw [e] at h
      subst h
      refine ⟨hi.fresh, fun h => by simp at h, fun _ => ?_⟩
      simp only [Sleeps] at h2
      simp [Runnable, List.getElem?_modify, h2, WaitStatus.wake]

theorem lastPoll_runs {m : SigMany} {i : Nat} (hi : LastPoll m i) : ∀ acts m', runs SigMany.step m acts = some m' →
    (∀ j, .poll j ∉ acts) → .drop i ∉ acts → LastPoll m' i := by
  intro acts
  induction acts generalizing m with
  | nil => intro m' h _ _; simp only [runs, Option.some.injEq] at h; subst h; exact hi
  | cons a acts ih =>
    intro m' h hp hd
    simp only [runs] at h
    split at h
    · rename_i m1 h1
      simp only [List.mem_cons, not_or] at hd hp
      exact ih (lastPoll_step hi (fun j e => (hp j).1 e.symm) (fun e => hd.1 e.symm) h1) m' h (fun j => (hp j).2) hd.2
    · cases h

end AstroRun
