import Verif.Lemmas.SignalMany

/-!
# A signal that many tasks wait for (C107)
-/

namespace AstroRun
open Spec

/-- **C107** At most one of the waiting tasks is ever told, and it is told the value that was written first. -/
theorem C107_one {m : SigMany} (h : ManyReach m) {i j : Nat} {v w : Signal} (hi : Told m i v) (hj : Told m j w) :
    i = j ∧ v = w ∧ m.sig.signal = some v := by
  have hinv := manyInv_reach h
  have hv := (hinv.told i v hi).2
  have hw := (hinv.told j w hj).2
  rw [hv] at hw
  exact ⟨hinv.once i j v w hi hj, Option.some.inj hw, hv⟩

/-- **C107** (the part that holds of "every task that waits for a signal is told") The task that was polled last before
the signal is written, by itself, is woken and told, whatever tasks come and go in between. -/
theorem C107_last_partial {m m1 m2 : SigMany} (h : ManyReach m) {i : Nat} (hn : m.sig.signal = none)
    (hp : m.step (.poll i) = some m1) {acts : List ManyAct} (hr : runs SigMany.step m1 acts = some m2)
    (hq : ∀ j, .poll j ∉ acts) (hd : .drop i ∉ acts) {v : Signal} (hv : m2.sig.signal = some v) :
    Runnable m2 i ∧ ∃ m3, m2.step (.poll i) = some m3 ∧ Told m3 i v := by
  have hinv := manyInv_reach h
  have hf : m.sig.isNotified = false := by
    rcases Bool.eq_false_or_eq_true m.sig.isNotified with e | e
    · have := hinv.notified e; simp [hn] at this
    · exact e
  have hl : LastPoll m1 i := by
    simp only [SigMany.step] at hp
    split at hp
    · rename_i hj
      have hlt : i < m.tasks.length := by
        rcases Nat.lt_or_ge i m.tasks.length with h' | h'
        · exact h'
        · rw [List.getElem?_eq_none h'] at hj; cases hj
      have e : m.sig.poll i = ({ m.sig with waker := some i }, none) := by simp [SigState.poll, hf, hn]
      rw [e] at hp
      simp only [Option.some.injEq] at hp
      subst hp
      exact ⟨hf, fun _ => ⟨rfl, by simp [Sleeps, hlt]⟩, fun hs => by simp [hn] at hs⟩
    · cases hp
  have hl2 := lastPoll_runs hl acts m2 hr hq hd
  have hrun := hl2.after (by simp [hv])
  refine ⟨hrun, { sig := { m2.sig with isNotified := true }, tasks := m2.tasks.set i (.awaiting (.got v)) }, ?_, ?_⟩
  · simp only [Runnable] at hrun
    simp [SigMany.step, hrun, SigState.poll, hl2.fresh, hv]
  · simp only [Runnable] at hrun
    have hlt : i < m2.tasks.length := by
      rcases Nat.lt_or_ge i m2.tasks.length with h' | h'
      · exact h'
      · rw [List.getElem?_eq_none h'] at hrun; cases hrun
    simp [Told, hlt]

/-- **C107** Every other task that sleeps when the signal is there sleeps for ever: no later call of `cancel` or
`timeout`, and no other task, wakes it. -/
theorem C107_asleep {m : SigMany} {i : Nat} (hs : m.sig.signal.isSome = true) (hp : Sleeps m i) : SleepsForever m i :=
  ⟨hp, fun acts m' h hd => (many_sleeps_runs hs hp acts m' h hd).2⟩

/-- **C107** A task that comes after the one that was told sleeps for ever, too. -/
theorem C107_late {m m' : SigMany} (h : ManyReach m) {i j : Nat} {v : Signal} (ht : Told m j v)
    (hp : m.step (.poll i) = some m') : SleepsForever m' i := by
  obtain ⟨hn, hv⟩ := (manyInv_reach h).told j v ht
  simp only [SigMany.step] at hp
  split at hp
  · rename_i hi
    have hlt : i < m.tasks.length := by
      rcases Nat.lt_or_ge i m.tasks.length with h' | h'
      · exact h'
      · rw [List.getElem?_eq_none h'] at hi; cases hi
    have e : m.sig.poll i = (m.sig, none) := by simp [SigState.poll, hn]
    rw [e] at hp
    simp only [Option.some.injEq] at hp
    subst hp
    exact C107_asleep (by simp [hv]) (by simp [Sleeps, hlt])
  · cases hp

namespace SignalManyEx

/-- Two tasks wait, then the signal is set, and the one that was woken is polled. -/
def two : List ManyAct := [.recv, .recv, .poll 0, .poll 1, .set .cancel, .poll 1]

/-- Two tasks wait, the second gives up, then the signal is set. -/
def gone : List ManyAct := [.recv, .recv, .poll 0, .poll 1, .drop 1, .set .cancel]

def twoEnd : SigMany := (runs SigMany.step {} two).get (by decide)
def goneEnd : SigMany := (runs SigMany.step {} gone).get (by decide)

-- the hypotheses of `C107_last_partial` are met: task 1 polls last, task 2 comes, the signal is set
example : ∃ m m1 m2 : SigMany, ManyReach m ∧ m.sig.signal = none ∧ m.step (.poll 1) = some m1 ∧
    runs SigMany.step m1 [.recv, .set .timeout] = some m2 ∧ m2.sig.signal = some .timeout :=
  ⟨(runs SigMany.step {} [.recv, .recv, .poll 0]).get (by decide), _, _, ⟨[.recv, .recv, .poll 0], by decide⟩, rfl, rfl, rfl, rfl⟩

-- and those of `C107_late`: task 1 was told, a third task comes
example : ∃ m m' : SigMany, ManyReach m ∧ Told m 1 .cancel ∧ m.step (.poll 2) = some m' :=
  ⟨(runs SigMany.step {} (two ++ [ManyAct.recv])).get (by decide), _, ⟨two ++ [.recv], by decide⟩, rfl, rfl⟩

end SignalManyEx

open SignalManyEx in
/-- **C107** "Every task that waits for a signal is told" is false: of two waiting tasks one is told and the other
sleeps for ever; and if the one that was polled last has given up, nobody at all is told. -/
theorem C107_refuted :
    (∃ m, ManyReach m ∧ Told m 1 .cancel ∧ SleepsForever m 0) ∧
    (∃ m, ManyReach m ∧ m.sig.signal = some .cancel ∧ (∀ i v, ¬ Told m i v) ∧ SleepsForever m 0) := by
  refine ⟨⟨twoEnd, ⟨two, by decide⟩, by decide, C107_asleep (by decide) (by decide)⟩,
    ⟨goneEnd, ⟨gone, by decide⟩, by decide, ?_, C107_asleep (by decide) (by decide)⟩⟩
  intro i v ht
  have := ((manyInv_reach ⟨gone, by decide⟩ : ManyInv goneEnd).told i v ht).1
  revert this
  decide

end AstroRun
