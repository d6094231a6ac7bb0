import Verif.Spec.Signal

/-! # Helper lemmas for signals -/

namespace AstroRun

theorem firstSet_append (p q : List SigOp) :
    firstSet (p ++ q) = (firstSet p).or (firstSet q) := by
  induction p with
  | nil => simp [firstSet]
  | cons o os ih => cases o <;> simp [firstSet, ih]

theorem SigState.exec_append (s : SigState) (p q : List SigOp) :
    s.exec (p ++ q) =
      (((s.exec p).1.exec q).1, (s.exec p).2 ++ ((s.exec p).1.exec q).2) := by
  induction p generalizing s with
  | nil => simp [SigState.exec]
  | cons o os ih => simp [SigState.exec, ih]

theorem SigState.op_signal (s : SigState) (o : SigOp) :
    (s.op o).1.signal = s.signal.or (firstSet [o]) := by
  cases o with
  | set v => cases h : s.signal <;> simp [SigState.op, SigState.set, h, firstSet]
  | poll t =>
    cases h : s.signal <;> cases hn : s.isNotified <;> simp [SigState.op, SigState.poll, h, hn, firstSet]

theorem SigState.exec_signal (s : SigState) (h : List SigOp) :
    (s.exec h).1.signal = s.signal.or (firstSet h) := by
  induction h generalizing s with
  | nil => simp [SigState.exec, firstSet]
  | cons o os ih =>
    have hc : firstSet (o :: os) = (firstSet [o]).or (firstSet os) := firstSet_append [o] os
    simp [SigState.exec, ih, SigState.op_signal, hc, Option.or_assoc]

theorem readyValues_notified (s : SigState) (h : List SigOp) (hn : s.isNotified = true) :
    readyValues (s.exec h).2 = [] := by
  induction h generalizing s with
  | nil => rfl
  | cons o os ih =>
    cases o with
    | set v =>
      have h1 : (s.op (.set v)).1.isNotified = true := by
        cases hsig : s.signal <;> simp [SigState.op, SigState.set, hsig, hn]
      have h2 := ih _ h1
      have h3 : (s.op (.set v)).2 = .setOk ∨ (s.op (.set v)).2 = .setErr := by
        cases hsig : s.signal <;> simp [SigState.op, SigState.set, hsig]
      simp only [SigState.exec]
      rcases h3 with h3 | h3 <;> rw [h3] <;> simpa [readyValues] using h2
    | poll t =>
      have := ih s hn
      simp_all [SigState.exec, readyValues, SigState.op, SigState.poll]

theorem SigState.notified_iff (s : SigState) (h : List SigOp) :
    (s.exec h).1.isNotified = true ↔ s.isNotified = true ∨ readyValues (s.exec h).2 ≠ [] := by
  induction h generalizing s with
  | nil => simp [SigState.exec, readyValues]
  | cons o os ih =>
    have := ih (s.op o).1
    cases o with
    | set v =>
      cases hs : s.signal <;> simp_all [SigState.exec, readyValues, SigState.op, SigState.set]
    | poll t =>
      cases hn : s.isNotified <;> cases hs : s.signal <;>
        simp_all [SigState.exec, readyValues, SigState.op, SigState.poll]

theorem RxSys.runActs_append (s : RxSys) (p q : List RxAct) :
    s.runActs (p ++ q) = (s.runActs p).bind (·.runActs q) := by
  induction p generalizing s with
  | nil => rfl
  | cons a as ih =>
    simp only [List.cons_append, RxSys.runActs]
    cases s.step a <;> simp [ih]

/-- Invariant: a parked receiver has its waker registered and the signal unset; a receiver that has
not resolved yet has not been notified. -/
def RxInv (s : RxSys) : Prop :=
  (s.rx = .parked → s.sig.signal = none ∧ s.sig.waker = some 0 ∧ s.sig.isNotified = false) ∧
  (s.rx = .runnable → s.sig.isNotified = false) ∧
  (∀ v, s.rx = .got v → s.sig.signal = some v)

theorem RxInv_reach {s : RxSys} (h : RxReach s) : RxInv s := by
  obtain ⟨acts, h⟩ := h
  suffices ∀ s0 : RxSys, RxInv s0 → s0.runActs acts = some s → RxInv s from
    this {} (by simp [RxInv]) h
  clear h
  induction acts with
  | nil => intro s0 h0 h; simp [RxSys.runActs] at h; exact h ▸ h0
  | cons a as ih =>
    intro s0 h0 h
    simp only [RxSys.runActs] at h
    cases hs : s0.step a with
    | none => simp [hs] at h
    | some s1 =>
      refine ih s1 ?_ (by simpa [hs] using h)
      obtain ⟨h1, h2, h3⟩ := h0
      cases a with
      | poll =>
        cases hr : s0.rx with
        | runnable =>
          have hn := h2 hr
          cases hsig : s0.sig.signal <;>
            simp [RxSys.step, hr, SigState.poll, hn, hsig] at hs <;> subst hs <;> simp_all [RxInv]
        | parked => simp [RxSys.step, hr] at hs
        | got v => simp [RxSys.step, hr] at hs
      | set v =>
        simp only [RxSys.step, Option.some.injEq] at hs
        subst hs
        cases hr : s0.rx with
        | runnable =>
          have hn := h2 hr
          cases hsig : s0.sig.signal <;> simp [RxInv, SigState.set, hsig, hn]
        | parked =>
          obtain ⟨a1, a2, a3⟩ := h1 hr
          simp [RxInv, SigState.set, a1, a2, a3]
        | got w =>
          have := h3 w hr
          simp [RxInv, SigState.set, this]

end AstroRun
