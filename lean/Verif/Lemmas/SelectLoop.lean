import Mathlib.Data.List.Induction
import Verif.Lemmas.Run
import Verif.Spec.SelectLoop

/-!
# Lemmas about the loop around a running step
-/

namespace AstroRun
open Spec

/-- Branch `b` was found pending and has left a waker behind. -/
def WakerHeld (m : SelLoop) (d : Time) : Branch → Prop
  | .timer => m.timer = some d
  | .signal => m.job.isNotified = true ∨ (m.job.signal = none ∧ m.job.waker = some 0)
  | .stream => m.stream.waker = some 0 ∧ m.stream.logs.length ≤ m.stream.index ∧ m.stream.result = none

/-- The wakers of the engine's task are where they should be. -/
structure WakeInv (m : SelLoop) : Prop where
  polling : ∀ d todo, m.pc = .polling d todo → m.woken = false → ∀ b, b ∉ todo → WakerHeld m d b
  pending : ∀ d, m.pc = .pending d → m.woken = false → ∀ b, WakerHeld m d b

/-- The runner's task and the step's signal. -/
structure RxLink (m : SelLoop) : Prop where
  parked : m.rx = .parked → m.sig.signal = none ∧ m.sig.waker = some 1 ∧ m.sig.isNotified = false
  runnable : m.rx = .runnable → m.sig.isNotified = false
  got : ∀ v, m.rx = .got v → m.sig.signal = some v

/-- A delivered job signal was passed on, and nothing but that. -/
structure PassedOn (m : SelLoop) : Prop where
  told : m.job.isNotified = true → m.sig.signal.isSome
  only : ∀ w, m.sig.signal = some w → w = .timeout ∨ (m.job.isNotified = true ∧ m.job.signal = some w)
  written : m.job.isNotified = true → m.job.signal.isSome

theorem mem_all {order : List Branch} (h : allBranches order = true) (b : Branch) : b ∈ order := by
  simp [allBranches] at h
  cases b <;> simp [h]

theorem setSig_signal (m : SelLoop) (v : Signal) : (m.setSig v).sig.signal = some (m.sig.signal.getD v) := by
  unfold SelLoop.setSig SigState.set
  cases h : m.sig.signal <;> simp [h]

theorem setSig_rx {m : SelLoop} (v : Signal) (h : RxLink m) : RxLink (m.setSig v) := by
  obtain ⟨h1, h2, h3⟩ := h
  unfold SelLoop.setSig SigState.set
  cases hs : m.sig.signal with
  | none =>
    cases hr : m.rx with
    | runnable => exact ⟨by simp, by simp [h2 hr], by simp⟩
    | parked =>
      obtain ⟨-, b, c⟩ := h1 hr
      exact ⟨by simp [b], by simp [c], by simp [b]⟩
    | got w => have := h3 w hr; simp [hs] at this
  | some w =>
    cases hr : m.rx with
    | runnable => exact ⟨by simp, by simp [h2 hr], by simp⟩
    | parked => have := (h1 hr).1; simp [hs] at this
    | got u => exact ⟨by simp, by simp, by have := h3 u hr; simp_all⟩

theorem wakeInv_step {m m' : SelLoop} {a : SelAct} (h : WakeInv m) (hs : m.step a = some m') : WakeInv m' := by
  obtain ⟨h1, h2⟩ := h
  cases a with
  | select order =>
    simp only [SelLoop.step] at hs
    split at hs <;> try contradiction
    split at hs <;> try contradiction
    rename_i ho
    cases hs
    exact ⟨fun d todo hp _ b hb => by cases hp; exact absurd (mem_all ho b) hb, by simp⟩
  | poll =>
    simp only [SelLoop.step] at hs
    split at hs <;> try contradiction
    rename_i d b todo hpc
    cases b with
    | timer =>
      simp only [SelLoop.pollBranch] at hs
      split at hs <;> cases hs
      · exact ⟨by simp, by simp⟩
      · refine ⟨fun d' todo' hp hw b hb => ?_, by simp⟩
        cases hp
        cases b with
        | timer => rfl
        | signal => exact h1 _ _ hpc hw .signal (by simpa using hb)
        | stream => exact h1 _ _ hpc hw .stream (by simpa using hb)
    | signal =>
      simp only [SelLoop.pollBranch] at hs
      split at hs <;> cases hs
      · exact ⟨by simp, by simp⟩
      · rename_i job hj
        refine ⟨fun d' todo' hp hw b hb => ?_, by simp⟩
        cases hp
        cases b with
        | timer => exact h1 _ _ hpc hw .timer (by simpa using hb)
        | signal =>
          simp only [SigState.poll] at hj
          split at hj
          · cases hj; left; assumption
          · split at hj <;> cases hj
            right; exact ⟨by assumption, rfl⟩
        | stream => exact h1 _ _ hpc hw .stream (by simpa using hb)
    | stream =>
      simp only [SelLoop.pollBranch] at hs
      split at hs
      · cases hs; exact ⟨by simp, by simp⟩
      · split at hs <;> cases hs
        exact ⟨by simp, by simp⟩
      · rename_i st hj
        cases hs
        refine ⟨fun d' todo' hp hw b hb => ?_, by simp⟩
        cases hp
        cases b with
        | timer => exact h1 _ _ hpc hw .timer (by simpa using hb)
        | signal => exact h1 _ _ hpc hw .signal (by simpa using hb)
        | stream =>
          simp only [StreamState.poll] at hj
          split at hj
          · cases hj
          · split at hj <;> cases hj
            rename_i hn hr
            exact ⟨rfl, by simpa using hn, by simpa using hr⟩
  | park =>
    simp only [SelLoop.step] at hs
    split at hs <;> try contradiction
    rename_i d hpc
    cases hs
    exact ⟨by simp, fun d' hp hw b => by cases hp; exact h1 _ _ hpc hw b (by simp)⟩
  | repoll order =>
    simp only [SelLoop.step] at hs
    split at hs <;> try contradiction
    split at hs <;> try contradiction
    rename_i ho
    cases hs
    simp only [Bool.and_eq_true] at ho
    exact ⟨fun d todo hp _ b hb => by cases hp; exact absurd (mem_all ho.2 b) hb, by simp⟩
  | hookDone =>
    simp only [SelLoop.step] at hs
    split at hs <;> cases hs
    exact ⟨by simp, by simp⟩
  | fire =>
    simp only [SelLoop.step] at hs
    split at hs <;> try contradiction
    split at hs <;> cases hs
    exact ⟨by simp, by simp⟩
  | wake => simp only [SelLoop.step] at hs; cases hs; exact ⟨by simp, by simp⟩
  | tick n =>
    simp only [SelLoop.step] at hs; cases hs
    exact ⟨fun d todo hp hw b hb => by have := h1 d todo hp hw b hb; cases b <;> exact this,
      fun d hp hw b => by have := h2 d hp hw b; cases b <;> exact this⟩
  | push l =>
    have key : m.woken = false → ((m.stream.push l).2 == some 0) = false → ∀ d b, WakerHeld m d b →
        WakerHeld ({ m with stream := (m.stream.push l).1 }.wakes (m.stream.push l).2) d b := by
      intro hw hn d b hb
      cases b with
      | timer => exact hb
      | signal => exact hb
      | stream => simp [StreamState.push, hb.1] at hn
    have : m' = { m with stream := (m.stream.push l).1 }.wakes (m.stream.push l).2 := by
      simp only [SelLoop.step] at hs
      split at hs <;> cases hs <;> rfl
    subst this
    refine ⟨fun d todo hp hw b hb => ?_, fun d hp hw b => ?_⟩ <;>
      simp only [SelLoop.wakes, Bool.or_eq_false_iff] at hw hp
    · exact key hw.1 hw.2 d b (h1 d todo hp hw.1 b hb)
    · exact key hw.1 hw.2 d b (h2 d hp hw.1 b)
  | endStream r =>
    have key : m.woken = false → ((m.stream.endSeq r).2 == some 0) = false → ∀ d b, WakerHeld m d b →
        WakerHeld ({ m with stream := (m.stream.endSeq r).1 }.wakes (m.stream.endSeq r).2) d b := by
      intro hw hn d b hb
      cases b with
      | timer => exact hb
      | signal => exact hb
      | stream =>
        obtain ⟨b1, b2, b3⟩ := hb
        simp [StreamState.endSeq, StreamState.isEnded, b3, StreamState.endWrite, b1] at hn
    have : m' = { m with stream := (m.stream.endSeq r).1 }.wakes (m.stream.endSeq r).2 := by
      simp only [SelLoop.step] at hs
      split at hs <;> cases hs <;> rfl
    subst this
    refine ⟨fun d todo hp hw b hb => ?_, fun d hp hw b => ?_⟩ <;>
      simp only [SelLoop.wakes, Bool.or_eq_false_iff] at hw hp
    · exact key hw.1 hw.2 d b (h1 d todo hp hw.1 b hb)
    · exact key hw.1 hw.2 d b (h2 d hp hw.1 b)
  | cancel =>
    have key : m.woken = false → ((m.job.set .cancel).woken == some 0) = false → ∀ d b, WakerHeld m d b →
        WakerHeld ({ m with job := (m.job.set .cancel).state }.wakes (m.job.set .cancel).woken) d b := by
      intro hw hn d b hb
      cases b with
      | timer => exact hb
      | stream => exact hb
      | signal =>
        rcases hb with hb | ⟨b1, b2⟩
        · left
          simp only [SelLoop.wakes, SigState.set]
          split <;> simpa using hb
        · simp [SigState.set, b1, b2] at hn
    simp only [SelLoop.step] at hs
    cases hs
    refine ⟨fun d todo hp hw b hb => ?_, fun d hp hw b => ?_⟩ <;>
      simp only [SelLoop.wakes, Bool.or_eq_false_iff] at hw hp
    · exact key hw.1 hw.2 d b (h1 d todo hp hw.1 b hb)
    · exact key hw.1 hw.2 d b (h2 d hp hw.1 b)
  | rxPoll =>
    have key : ∀ sig rx d b, WakerHeld m d b → WakerHeld { m with sig := sig, rx := rx } d b := by
      intro _ _ _ b hb; cases b <;> exact hb
    simp only [SelLoop.step] at hs
    split at hs <;> try contradiction
    split at hs <;> cases hs <;>
      exact ⟨fun d todo hp hw b hb => key _ _ d b (h1 d todo hp hw b hb), fun d hp hw b => key _ _ d b (h2 d hp hw b)⟩

theorem rxLink_step {m m' : SelLoop} {a : SelAct} (h : RxLink m) (hs : m.step a = some m') : RxLink m' := by
  have keep : ∀ x : SelLoop, x.sig = m.sig → x.rx = m.rx → RxLink x := fun x h1 h2 =>
    ⟨by rw [h1, h2]; exact h.parked, by rw [h1, h2]; exact h.runnable, by rw [h1, h2]; exact h.got⟩
  cases a with
  | poll =>
    simp only [SelLoop.step] at hs
    split at hs <;> try contradiction
    rename_i d b todo hpc
    cases b with
    | timer =>
      simp only [SelLoop.pollBranch] at hs
      split at hs <;> cases hs
      · have := setSig_rx .timeout h
        exact ⟨this.parked, this.runnable, this.got⟩
      · exact keep _ rfl rfl
    | signal =>
      simp only [SelLoop.pollBranch] at hs
      split at hs <;> cases hs
      · rename_i v hj
        have := setSig_rx v h
        exact ⟨this.parked, this.runnable, this.got⟩
      · exact keep _ rfl rfl
    | stream =>
      simp only [SelLoop.pollBranch] at hs
      split at hs
      · cases hs; exact keep _ rfl rfl
      · split at hs <;> cases hs; exact keep _ rfl rfl
      · cases hs; exact keep _ rfl rfl
  | rxPoll =>
    simp only [SelLoop.step] at hs
    split at hs <;> try contradiction
    rename_i hr
    have hn := h.runnable hr
    split at hs <;> cases hs <;> rename_i hp <;> simp [SigState.poll, hn] at hp
    · split at hp <;> simp at hp
      rename_i v hv
      obtain ⟨rfl, rfl⟩ := hp
      exact ⟨by simp, by simp, by simp [hv]⟩
    · split at hp <;> simp at hp
      rename_i hv
      subst hp
      exact ⟨by simp [hv, hn], by simp, by simp⟩
  | _ =>
    simp only [SelLoop.step] at hs
    (repeat' split at hs) <;> cases hs <;> exact keep _ rfl rfl

theorem passedOn_step {m m' : SelLoop} {a : SelAct} (h : PassedOn m) (hs : m.step a = some m') : PassedOn m' := by
  have keep : ∀ x : SelLoop, x.sig.signal = m.sig.signal → x.job.signal = m.job.signal →
      x.job.isNotified = m.job.isNotified → PassedOn x := fun x h1 h2 h3 =>
    ⟨by rw [h1, h3]; exact h.told, by rw [h1, h2, h3]; exact h.only, by rw [h2, h3]; exact h.written⟩
  cases a with
  | poll =>
    simp only [SelLoop.step] at hs
    split at hs <;> try contradiction
    rename_i d b todo hpc
    cases b with
    | timer =>
      simp only [SelLoop.pollBranch] at hs
      split at hs <;> cases hs
      · have e := setSig_signal m .timeout
        refine ⟨fun _ => by simp [e], fun w hw => ?_, h.written⟩
        simp only [e] at hw
        cases hg : m.sig.signal with
        | none => left; simpa [hg] using hw.symm
        | some u =>
          simp only [hg, Option.getD_some, Option.some.injEq] at hw
          exact h.only w (by rw [hg, hw])
      · exact keep _ rfl rfl rfl
    | signal =>
      simp only [SelLoop.pollBranch] at hs
      split at hs <;> cases hs
      · rename_i job v hj
        simp only [SigState.poll] at hj
        split at hj
        · cases hj
        · split at hj <;> cases hj
          rename_i hn u hv
          have e := setSig_signal { m with job := { m.job with isNotified := true } } v
          simp only at e
          refine ⟨fun _ => by simp [e], fun w hw => ?_, fun _ => by simp [SelLoop.setSig, hv]⟩
          simp only [e] at hw
          cases hg : m.sig.signal with
          | none => right; exact ⟨rfl, by simp [hg] at hw; simp [SelLoop.setSig, hv, hw]⟩
          | some u =>
            simp only [hg, Option.getD_some, Option.some.injEq] at hw
            rcases h.only w (by rw [hg, hw]) with h | ⟨h, -⟩
            · exact .inl h
            · exact absurd h hn
      · rename_i job hj
        simp only [SigState.poll] at hj
        split at hj
        · cases hj; exact keep _ rfl rfl rfl
        · split at hj <;> cases hj; exact keep _ rfl rfl rfl
    | stream =>
      simp only [SelLoop.pollBranch] at hs
      split at hs
      · cases hs; exact keep _ rfl rfl rfl
      · split at hs <;> cases hs; exact keep _ rfl rfl rfl
      · cases hs; exact keep _ rfl rfl rfl
  | rxPoll =>
    simp only [SelLoop.step] at hs
    split at hs <;> try contradiction
    split at hs <;> cases hs <;> rename_i hp <;> refine keep _ ?_ rfl rfl <;>
      simp only [SigState.poll] at hp <;> (repeat' split at hp) <;> cases hp <;> rfl
  | cancel =>
    simp only [SelLoop.step] at hs
    cases hs
    cases hj : m.job.signal with
    | some v => exact keep _ rfl (by simp [SelLoop.wakes, SigState.set, hj]) (by simp [SelLoop.wakes, SigState.set, hj])
    | none =>
      have hn : m.job.isNotified = false := by
        cases hn : m.job.isNotified with
        | false => rfl
        | true => have := h.written hn; simp [hj] at this
      refine ⟨by simp [SelLoop.wakes, SigState.set, hj, hn], fun w hw => ?_, by simp [SelLoop.wakes, SigState.set, hj, hn]⟩
      rcases h.only w hw with h | ⟨h, -⟩
      · exact .inl h
      · simp [hn] at h
  | _ =>
    simp only [SelLoop.step] at hs
    (repeat' split at hs) <;> cases hs <;> exact keep _ rfl rfl rfl

/-! ## The loop and the job machine -/

/-- `SamePoint` without the part about the program counter. -/
structure SameShared (l : SelLoop) (m : JobM) : Prop where
  now : m.now = l.now
  job : ∃ js, m.jobSig = some js ∧ js.signal = l.job.signal ∧ js.isNotified = l.job.isNotified
  sig : m.sig.signal = l.sig.signal
  stream : SameStream l.stream m.stream

theorem samePoint_shared {s : Step} {t0 : Time} {b : JobAcc} {l : SelLoop} {m : JobM} (h : SamePoint s t0 b l m) :
    SameShared l m := ⟨h.1, h.2.1, h.2.2.1, h.2.2.2.1⟩

theorem sameStream_push {a b : StreamState} (h : SameStream a b) (l : Log) : SameStream (a.push l).1 (b.push l).1 := by
  obtain ⟨h1, h2, h3⟩ := h
  exact ⟨by simp [StreamState.push, h1], h2, h3⟩

theorem sameStream_end {a b : StreamState} (h : SameStream a b) (r : RunResult) :
    SameStream (a.endSeq r).1 (b.endSeq r).1 := by
  obtain ⟨h1, h2, h3⟩ := h
  simp only [StreamState.endSeq, StreamState.isEnded, h2]
  rcases Bool.eq_false_or_eq_true b.result.isSome with hb | hb
  · simp only [hb, if_true]; exact ⟨h1, h2, h3⟩
  · simp only [hb]; exact ⟨h1, rfl, h3⟩

theorem set_signal_eq {a b : SigState} (h : a.signal = b.signal) (v : Signal) :
    (a.set v).state.signal = (b.set v).state.signal := by
  unfold SigState.set
  rw [h]
  cases hb : b.signal <;> simp [h, hb]

theorem set_notified_eq (a : SigState) (v : Signal) : (a.set v).state.isNotified = a.isNotified := by
  unfold SigState.set
  cases a.signal <;> rfl

/-- What a poll of equal streams gives. -/
theorem stream_poll_same {a b : StreamState} (h : SameStream a b) (t u : Nat) :
    SameStream (a.poll t).1 (b.poll u).1 ∧ (a.poll t).2 = (b.poll u).2 := by
  obtain ⟨h1, h2, h3⟩ := h
  simp only [StreamState.poll, h1, h2, h3]
  split
  · exact ⟨⟨rfl, rfl, rfl⟩, rfl⟩
  · split <;> exact ⟨⟨rfl, rfl, rfl⟩, rfl⟩

/-- What a poll of equal signals gives. -/
theorem sig_poll_same {a b : SigState} (h1 : a.signal = b.signal) (h2 : a.isNotified = b.isNotified) (t u : Nat) :
    (a.poll t).2 = (b.poll u).2 ∧ (a.poll t).1.signal = (b.poll u).1.signal ∧
      (a.poll t).1.isNotified = (b.poll u).1.isNotified := by
  simp only [SigState.poll, h1, h2]
  split
  · exact ⟨rfl, h1, h2⟩
  · split
    · exact ⟨rfl, rfl, rfl⟩
    · exact ⟨rfl, rfl, rfl⟩

theorem sig_poll_signal (a : SigState) (t : Nat) : (a.poll t).1.signal = a.signal := by
  simp only [SigState.poll]
  split
  · rfl
  · split <;> rfl

theorem sig_poll_none {a : SigState} {t : Nat} (h : none = (a.poll t).2) : (a.poll t).1.isNotified = a.isNotified := by
  simp only [SigState.poll] at h ⊢
  split
  · rfl
  · split
    · rename_i hn _ _ hv
      simp [hn, hv] at h
    · rfl

/-- A move of the loop is a move, or none, of the job machine. -/
theorem loop_step_jobM {s : Step} {t0 : Time} {b : JobAcc} {l l' : SelLoop} {m : JobM} {a : SelAct}
    (h : SamePoint s t0 b l m) (ht : l.timeout = s.timeout) (hs : l.step a = some l') :
    ∃ jacts m', runs JobM.step m jacts = some m' ∧ SamePoint s t0 b l' m' ∧ l'.timeout = s.timeout ∧
      jacts.all loopJobMove = true ∧ jacts.filter outsideJobMove = (outsideMove a).toList := by
  obtain ⟨hnow, ⟨js, hjs, hj1, hj2⟩, hsig, hst, hpc⟩ := h
  cases a with
  | select order =>
    simp only [SelLoop.step] at hs
    split at hs <;> try contradiction
    split at hs <;> try contradiction
    rename_i hp ho
    cases hs
    simp only [hp] at hpc
    refine ⟨[.enter], { m with pc := .select s t0 (m.now + s.timeout) }, by simp [runs, JobM.step, hpc.1], ⟨hnow, ⟨js, hjs, hj1, hj2⟩, hsig, hst, ?_⟩, ht, rfl, rfl⟩
    exact ⟨by simp [hnow, ht], hpc.2⟩
  | poll =>
    simp only [SelLoop.step] at hs
    split at hs <;> try contradiction
    rename_i d br todo hp
    simp only [hp] at hpc
    cases br with
    | timer =>
      simp only [SelLoop.pollBranch] at hs
      split at hs <;> cases hs
      · rename_i hd
        refine ⟨[.timer], { m with pc := .handling s t0, sig := (m.sig.set .timeout).state },
          by simp [runs, JobM.step, hpc.1, hnow, hd],
          ⟨by simpa [SelLoop.setSig] using hnow, ⟨js, hjs, hj1, hj2⟩, set_signal_eq hsig _, hst, rfl, ?_⟩, ht, rfl, rfl⟩
        simpa [SelLoop.setSig] using hpc.2
      · exact ⟨[], m, rfl, ⟨hnow, ⟨js, hjs, hj1, hj2⟩, hsig, hst, hpc⟩, ht, rfl, rfl⟩
    | signal =>
      have key := sig_poll_same hj1 hj2 0 0
      simp only [SelLoop.pollBranch] at hs
      split at hs <;> cases hs
      · rename_i job v hj
        rw [hj] at key
        obtain ⟨k1, k2, k3⟩ := key
        have e : js.poll 0 = ((js.poll 0).1, some v) := Prod.ext rfl k1
        refine ⟨[.jobSignal], { m with pc := .handling s t0, jobSig := some (js.poll 0).1, sig := (m.sig.set v).state },
          by simp only [runs, JobM.step, hpc.1, hjs]; rw [e],
          ⟨by simpa [SelLoop.setSig] using hnow, ⟨_, rfl, k2, k3⟩, set_signal_eq hsig _, hst, rfl, ?_⟩, ht, rfl, rfl⟩
        simpa [SelLoop.setSig] using hpc.2
      · rename_i job hj
        rw [hj] at key
        obtain ⟨k1, k2, k3⟩ := key
        have e1 := sig_poll_signal js 0
        refine ⟨[], m, rfl, ⟨hnow, ⟨js, hjs, by rw [← k2, e1], ?_⟩, hsig, hst, hpc⟩, ht, rfl, rfl⟩
        rw [← k3, sig_poll_none k1.symm]
    | stream =>
      have key := stream_poll_same hst 0 0
      simp only [SelLoop.pollBranch] at hs
      split at hs
      · rename_i st lg hl
        cases hs
        rw [hl] at key
        obtain ⟨k1, k2⟩ := key
        have e : m.stream.poll 0 = ((m.stream.poll 0).1, .item lg) := Prod.ext rfl k2.symm
        refine ⟨[.recv], { m.emit [.log s.id lg] with pc := .handling s t0, stream := (m.stream.poll 0).1 },
          by simp only [runs, JobM.step, hpc.1]; rw [e],
          ⟨hnow, ⟨js, hjs, hj1, hj2⟩, hsig, k1, rfl, ?_⟩, ht, rfl, rfl⟩
        simp [JobM.emit, hpc.2]
      · rename_i st hl
        rw [hl] at key
        obtain ⟨k1, k2⟩ := key
        split at hs <;> cases hs
        rename_i r hr
        have e : m.stream.poll 0 = ((m.stream.poll 0).1, .eos) := Prod.ext rfl k2.symm
        have hr' : m.stream.result = some r := by rw [← hst.2.1, hr]
        refine ⟨[.recv], m.stepDone (stepResult s.id r t0 m.now), by simp only [runs, JobM.step, hpc.1]; rw [e]; simp [hr'],
          ⟨hnow, ⟨js, hjs, hj1, hj2⟩, hsig, ?_, rfl, ?_⟩, ht, rfl, rfl⟩
        · simp only [StreamState.poll] at hl
          split at hl
          · cases hl
          · split at hl <;> cases hl
            exact hst
        · simp only [JobM.stepDone, hpc.2, hnow]
          cases r <;> rfl
      · rename_i st hl
        cases hs
        refine ⟨[], m, rfl, ⟨hnow, ⟨js, hjs, hj1, hj2⟩, hsig, ?_, hpc⟩, ht, rfl, rfl⟩
        simp only [StreamState.poll] at hl
        split at hl
        · cases hl
        · split at hl <;> cases hl
          exact hst
  | park =>
    simp only [SelLoop.step] at hs
    split at hs <;> try contradiction
    rename_i d hp
    simp only [hp] at hpc
    cases hs
    exact ⟨[], m, rfl, ⟨hnow, ⟨js, hjs, hj1, hj2⟩, hsig, hst, hpc⟩, ht, rfl, rfl⟩
  | repoll order =>
    simp only [SelLoop.step] at hs
    split at hs <;> try contradiction
    rename_i d hp
    simp only [hp] at hpc
    split at hs <;> cases hs
    exact ⟨[], m, rfl, ⟨hnow, ⟨js, hjs, hj1, hj2⟩, hsig, hst, hpc⟩, ht, rfl, rfl⟩
  | hookDone =>
    simp only [SelLoop.step] at hs
    split at hs <;> cases hs
    rename_i hp
    simp only [hp] at hpc
    exact ⟨[], m, rfl, ⟨hnow, ⟨js, hjs, hj1, hj2⟩, hsig, hst, hpc⟩, ht, rfl, rfl⟩
  | fire =>
    simp only [SelLoop.step] at hs
    split at hs <;> try contradiction
    split at hs <;> cases hs
    exact ⟨[], m, rfl, ⟨hnow, ⟨js, hjs, hj1, hj2⟩, hsig, hst, hpc⟩, ht, rfl, rfl⟩
  | wake =>
    simp only [SelLoop.step] at hs; cases hs
    exact ⟨[], m, rfl, ⟨hnow, ⟨js, hjs, hj1, hj2⟩, hsig, hst, hpc⟩, ht, rfl, rfl⟩
  | tick n =>
    simp only [SelLoop.step] at hs; cases hs
    exact ⟨[.tick n], { m with now := m.now + n }, rfl, ⟨by simp [hnow], ⟨js, hjs, hj1, hj2⟩, hsig, hst, hpc⟩, ht, rfl, rfl⟩
  | push lg =>
    have hst' := sameStream_push hst lg
    simp only [SelLoop.step] at hs
    split at hs <;> try contradiction
    rename_i hnd
    cases hs
    refine ⟨[.push lg], { m with stream := (m.stream.push lg).1 }, ?_, ⟨hnow, ⟨js, hjs, hj1, hj2⟩, hsig, hst', hpc⟩, ht, rfl, rfl⟩
    cases hp : l.pc <;> simp only [hp] at hpc <;> first
      | exact absurd hp (hnd _ _)
      | simp [runs, JobM.step, hpc.1]
  | endStream r =>
    have hst' := sameStream_end hst r
    simp only [SelLoop.step] at hs
    split at hs <;> try contradiction
    rename_i hnd
    cases hs
    refine ⟨[.endStream r], { m with stream := (m.stream.endSeq r).1 }, ?_, ⟨hnow, ⟨js, hjs, hj1, hj2⟩, hsig, hst', hpc⟩, ht, rfl, rfl⟩
    cases hp : l.pc <;> simp only [hp] at hpc <;> first
      | exact absurd hp (hnd _ _)
      | simp [runs, JobM.step, hpc.1]
  | cancel =>
    simp only [SelLoop.step] at hs; cases hs
    refine ⟨[.cancel], { m with jobSig := some (js.set .cancel).state, answers := m.answers ++ [(js.set .cancel).ok] },
      by simp [runs, JobM.step, hjs], ⟨hnow, ⟨_, rfl, set_signal_eq hj1 _, ?_⟩, hsig, hst, hpc⟩, ht, rfl, rfl⟩
    simp [set_notified_eq, hj2, SelLoop.wakes]
  | rxPoll =>
    simp only [SelLoop.step] at hs
    split at hs <;> try contradiction
    have := sig_poll_signal l.sig 1
    split at hs <;> cases hs <;> rename_i hq <;> rw [hq] at this <;>
      exact ⟨[], m, rfl, ⟨hnow, ⟨js, hjs, hj1, hj2⟩, by rw [hsig]; exact this.symm, hst, hpc⟩, ht, rfl, rfl⟩

/-- A schedule of the loop is a schedule of the job machine. -/
theorem loop_runs_jobM {s : Step} {t0 : Time} {b : JobAcc} {l0 l : SelLoop} {m0 : JobM} {acts : List SelAct}
    (h0 : SamePoint s t0 b l0 m0) (ht : l0.timeout = s.timeout) (h : runs SelLoop.step l0 acts = some l) :
    ∃ jacts m, runs JobM.step m0 jacts = some m ∧ SamePoint s t0 b l m ∧ l.timeout = s.timeout ∧
      jacts.all loopJobMove = true ∧ jacts.filter outsideJobMove = acts.filterMap outsideMove := by
  induction acts using List.reverseRecOn generalizing l with
  | nil => cases h; exact ⟨[], m0, rfl, h0, ht, rfl, rfl⟩
  | append_singleton acts a ih =>
    obtain ⟨x, hr, hstep⟩ := runs_snoc.1 h
    obtain ⟨j1, m1, r1, p1, t1, a1, f1⟩ := ih hr
    obtain ⟨j2, m2, r2, p2, t2, a2, f2⟩ := loop_step_jobM p1 t1 hstep
    refine ⟨j1 ++ j2, m2, ?_, p2, t2, ?_, ?_⟩
    · rw [runs_append, r1]; exact r2
    · simp only [List.all_append, a1, a2]; rfl
    · rw [List.filter_append, List.filterMap_append, f1, f2]
      cases ha : outsideMove a <;> simp [List.filterMap_cons, ha]

/-- Where the loop is made to wait for the job machine. -/
def LoopAt (order : List Branch) (l : SelLoop) (m : JobM) : Prop :=
  match m.pc with
  | .handling _ _ => l.pc = .top
  | .select _ _ d => l.pc = .polling d order
  | _ => ∃ r t, l.pc = .done r t

theorem loop_extend {l0 l1 l2 : SelLoop} {p q : List SelAct} {jp : List JobAct} {ja : JobAct}
    (h1 : runs SelLoop.step l0 p = some l1) (h2 : runs SelLoop.step l1 q = some l2)
    (f1 : p.filterMap outsideMove = jp.filter outsideJobMove)
    (f2 : q.filterMap outsideMove = [ja].filter outsideJobMove) :
    runs SelLoop.step l0 (p ++ q) = some l2 ∧
      (p ++ q).filterMap outsideMove = (jp ++ [ja]).filter outsideJobMove :=
  ⟨by rw [runs_append, h1]; exact h2, by rw [List.filterMap_append, List.filter_append, f1, f2]⟩

/-- What the job machine does in the loop, the loop can do, too. -/
theorem jobM_runs_loop {s : Step} {t0 : Time} {b : JobAcc} {l0 : SelLoop} {m0 m : JobM} {jacts : List JobAct}
    (h0 : SamePoint s t0 b l0 m0) (ht : l0.timeout = s.timeout) (hp0 : l0.pc = .top)
    (h : runs JobM.step m0 jacts = some m) (hall : jacts.all loopJobMove = true) (order : List Branch)
    (ho : allBranches order = true) :
    ∃ acts l, runs SelLoop.step l0 acts = some l ∧ SamePoint s t0 b l m ∧ LoopAt order l m ∧ l.timeout = s.timeout ∧
      acts.filterMap outsideMove = jacts.filter outsideJobMove := by
  induction jacts using List.reverseRecOn generalizing m order with
  | nil =>
    cases h
    refine ⟨[], l0, rfl, h0, ?_, ht, rfl⟩
    have := h0.2.2.2.2
    simp only [hp0] at this
    simp only [LoopAt, this.1, hp0]
  | append_singleton jacts ja ih =>
    obtain ⟨m1, hr, hstep⟩ := runs_snoc.1 h
    clear h
    obtain ⟨m2, hm⟩ : ∃ m2, m2 = m := ⟨_, rfl⟩
    rw [← hm] at hstep ⊢
    clear hm
    simp only [List.all_append, Bool.and_eq_true] at hall
    have hja : loopJobMove ja = true := by simpa using hall.2
    -- the state before, for a given order
    have get : ∀ o, allBranches o = true → ∃ acts l, runs SelLoop.step l0 acts = some l ∧ SamePoint s t0 b l m1 ∧
        LoopAt o l m1 ∧ l.timeout = s.timeout ∧ acts.filterMap outsideMove = jacts.filter outsideJobMove :=
      fun o ho => ih hr (by simpa using hall.1) o ho
    cases ja with
    | enter =>
      obtain ⟨acts, l, r, p, at_, t, f⟩ := get order ho
      obtain ⟨hnow, hj, hsig, hst, hpc⟩ := p
      simp only [JobM.step] at hstep
      split at hstep <;> try contradiction
      rename_i s' t' hm
      simp only [LoopAt, hm] at at_
      simp only [at_, hm] at hpc
      obtain ⟨he, hacc⟩ := hpc
      cases he
      cases hstep
      obtain ⟨e1, e2⟩ := loop_extend (ja := .enter) r (q := [.select order]) (l2 := { l with pc := .polling (l.now + l.timeout) order })
        (by simp [runs, SelLoop.step, at_, ho]) f rfl
      refine ⟨_, _, e1, ⟨hnow, hj, hsig, hst, ?_, hacc⟩, ?_, t, e2⟩
      · simp [hnow, t]
      · simp [LoopAt, hnow, t]
    | timer =>
      obtain ⟨acts, l, r, p, at_, t, f⟩ := get [.timer, .signal, .stream] rfl
      obtain ⟨hnow, hj, hsig, hst, hpc⟩ := p
      simp only [JobM.step] at hstep
      split at hstep <;> try contradiction
      rename_i s' t' d hm
      simp only [LoopAt, hm] at at_
      simp only [at_, hm] at hpc
      obtain ⟨he, hacc⟩ := hpc
      cases he
      split at hstep <;> cases hstep
      rename_i hd
      obtain ⟨e1, e2⟩ := loop_extend (ja := .timer) r (q := [.poll]) (l2 := { l.setSig .timeout with pc := .top, timer := none })
        (by simp [runs, SelLoop.step, at_, SelLoop.pollBranch, ← hnow, hd]) f rfl
      exact ⟨_, _, e1, ⟨hnow, hj, set_signal_eq hsig _, hst, rfl, hacc⟩, rfl, t, e2⟩
    | jobSignal =>
      obtain ⟨acts, l, r, p, at_, t, f⟩ := get [.signal, .timer, .stream] rfl
      obtain ⟨hnow, ⟨js, hjs, hj1, hj2⟩, hsig, hst, hpc⟩ := p
      simp only [JobM.step] at hstep
      split at hstep <;> try contradiction
      rename_i s' t' d js' hm hjs'
      rw [hjs] at hjs'
      cases hjs'
      simp only [LoopAt, hm] at at_
      simp only [at_, hm] at hpc
      obtain ⟨he, hacc⟩ := hpc
      cases he
      split at hstep <;> cases hstep
      rename_i js2 v hv
      have key := sig_poll_same hj1 hj2 0 0
      rw [hv] at key
      obtain ⟨k1, k2, k3⟩ := key
      have e : l.job.poll 0 = ((l.job.poll 0).1, some v) := Prod.ext rfl k1.symm
      obtain ⟨e1, e2⟩ := loop_extend (ja := .jobSignal) r (q := [.poll])
        (l2 := { { l with job := (l.job.poll 0).1 }.setSig v with pc := .top, timer := none })
        (by simp only [runs, SelLoop.step, at_, SelLoop.pollBranch]; rw [e]) f rfl
      exact ⟨_, _, e1, ⟨hnow, ⟨_, rfl, k2, k3⟩, set_signal_eq hsig _, hst, rfl, hacc⟩, rfl, t, e2⟩
    | recv =>
      obtain ⟨acts, l, r, p, at_, t, f⟩ := get [.stream, .timer, .signal] rfl
      obtain ⟨hnow, ⟨js, hjs, hj1, hj2⟩, hsig, hst, hpc⟩ := p
      simp only [JobM.step] at hstep
      split at hstep <;> try contradiction
      rename_i s' t' d hm
      simp only [LoopAt, hm] at at_
      simp only [at_, hm] at hpc
      obtain ⟨he, hacc⟩ := hpc
      cases he
      have key := stream_poll_same hst 0 0
      split at hstep
      · rename_i st lg hl
        cases hstep
        rw [hl] at key
        obtain ⟨k1, k2⟩ := key
        have e : l.stream.poll 0 = ((l.stream.poll 0).1, .item lg) := Prod.ext rfl k2
        obtain ⟨e1, e2⟩ := loop_extend (ja := .recv) r (q := [.poll, .hookDone])
          (l2 := { l with stream := (l.stream.poll 0).1, woken := true, logged := l.logged ++ [lg], pc := .top, timer := none })
          (by simp only [runs, SelLoop.step, at_, SelLoop.pollBranch]; rw [e]; rfl) f rfl
        exact ⟨_, _, e1, ⟨hnow, ⟨js, hjs, hj1, hj2⟩, hsig, k1, rfl, by simp [JobM.emit, hacc]⟩, rfl, t, e2⟩
      · rename_i st hl
        rw [hl] at key
        obtain ⟨k1, k2⟩ := key
        have hl' := hl
        simp only [StreamState.poll] at hl'
        split at hl'
        · cases hl'
        · split at hl' <;> cases hl'
          rename_i hnone hsome
          obtain ⟨res, hres⟩ := Option.isSome_iff_exists.1 hsome
          simp only [hres] at hstep
          cases hstep
          have e : l.stream.poll 0 = ((l.stream.poll 0).1, .eos) := Prod.ext rfl k2
          obtain ⟨e1, e2⟩ := loop_extend (ja := .recv) r (q := [.poll])
            (l2 := { l with stream := (l.stream.poll 0).1, pc := .done res l.now, timer := none })
            (by simp only [runs, SelLoop.step, at_, SelLoop.pollBranch]; rw [e]; simp [hst.2.1, hres]) f rfl
          refine ⟨_, _, e1, ⟨hnow, ⟨js, hjs, hj1, hj2⟩, hsig, k1, rfl, ?_⟩, ⟨_, _, rfl⟩, t, e2⟩
          simp only [JobM.stepDone, hacc, hnow]
          cases res <;> rfl
      · cases hstep
    | tick n =>
      obtain ⟨acts, l, r, p, at_, t, f⟩ := get order ho
      obtain ⟨hnow, hj, hsig, hst, hpc⟩ := p
      cases hstep
      obtain ⟨e1, e2⟩ := loop_extend (ja := .tick n) r (q := [.tick n]) (l2 := { l with now := l.now + n }) rfl f rfl
      exact ⟨_, _, e1, ⟨by simp [hnow], hj, hsig, hst, hpc⟩, at_, t, e2⟩
    | push lg =>
      obtain ⟨acts, l, r, p, at_, t, f⟩ := get order ho
      obtain ⟨hnow, hj, hsig, hst, hpc⟩ := p
      have hm2 : m2 = { m1 with stream := (m1.stream.push lg).1 } := by
        simp only [JobM.step] at hstep
        split at hstep <;> cases hstep <;> rfl
      subst hm2
      obtain ⟨e1, e2⟩ := loop_extend (ja := .push lg) r (q := [.push lg])
        (l2 := { l with stream := (l.stream.push lg).1 }.wakes (l.stream.push lg).2)
        (by
          cases hp : l.pc <;> try simp only [runs, SelLoop.step, hp]
          simp only [hp] at hpc
          simp [JobM.step, hpc.1] at hstep) f rfl
      exact ⟨_, _, e1, ⟨hnow, hj, hsig, sameStream_push hst lg, hpc⟩, at_, t, e2⟩
    | endStream x =>
      obtain ⟨acts, l, r, p, at_, t, f⟩ := get order ho
      obtain ⟨hnow, hj, hsig, hst, hpc⟩ := p
      have hm2 : m2 = { m1 with stream := (m1.stream.endSeq x).1 } := by
        simp only [JobM.step] at hstep
        split at hstep <;> cases hstep <;> rfl
      subst hm2
      obtain ⟨e1, e2⟩ := loop_extend (ja := .endStream x) r (q := [.endStream x])
        (l2 := { l with stream := (l.stream.endSeq x).1 }.wakes (l.stream.endSeq x).2)
        (by
          cases hp : l.pc <;> try simp only [runs, SelLoop.step, hp]
          simp only [hp] at hpc
          simp [JobM.step, hpc.1] at hstep) f rfl
      exact ⟨_, _, e1, ⟨hnow, hj, hsig, sameStream_end hst x, hpc⟩, at_, t, e2⟩
    | cancel =>
      obtain ⟨acts, l, r, p, at_, t, f⟩ := get order ho
      obtain ⟨hnow, ⟨js, hjs, hj1, hj2⟩, hsig, hst, hpc⟩ := p
      simp only [JobM.step, hjs, Option.some.injEq] at hstep
      subst hstep
      obtain ⟨e1, e2⟩ := loop_extend (ja := .cancel) r (q := [.cancel])
        (l2 := { l with job := (l.job.set .cancel).state }.wakes (l.job.set .cancel).woken) rfl f rfl
      refine ⟨_, _, e1, ⟨hnow, ⟨_, rfl, set_signal_eq hj1 _, ?_⟩, hsig, hst, hpc⟩, at_, t, e2⟩
      simp [set_notified_eq, hj2, SelLoop.wakes]
    | _ => simp [loopJobMove, outsideJobMove] at hja

/-! ## Reachable states -/

/-- What has been read. -/
structure ReadInv (m : SelLoop) : Prop where
  logged : m.logged = m.stream.logs.take m.stream.index
  bound : m.stream.index ≤ m.stream.logs.length
  done : ∀ r t, m.pc = .done r t → m.stream.result = some r ∧ m.stream.index = m.stream.logs.length

theorem stream_poll_cases (s : StreamState) (t : Nat) :
    (∃ l, s.logs[s.index]? = some l ∧ s.poll t = ({ s with waker := some t, index := s.index + 1 }, .item l)) ∨
    (s.logs.length ≤ s.index ∧ s.result.isSome ∧ s.poll t = ({ s with waker := some t }, .eos)) ∨
    (s.logs.length ≤ s.index ∧ s.result = none ∧ s.poll t = ({ s with waker := some t }, .pending)) := by
  simp only [StreamState.poll]
  split
  · rename_i l hl
    exact .inl ⟨l, hl, rfl⟩
  · rename_i hn
    have := List.getElem?_eq_none_iff.1 hn
    split
    · exact .inr (.inl ⟨this, by assumption, rfl⟩)
    · exact .inr (.inr ⟨this, by rename_i h; simpa using h, rfl⟩)

theorem readInv_step {m m' : SelLoop} {a : SelAct} (h : ReadInv m) (hs : m.step a = some m') : ReadInv m' := by
  have keep : ∀ x : SelLoop, x.logged = m.logged → x.stream.logs = m.stream.logs → x.stream.index = m.stream.index →
      (∀ r t, x.pc = .done r t → x.stream.result = some r ∧ m.stream.index = m.stream.logs.length) → ReadInv x :=
    fun x h1 h2 h3 h4 => ⟨by rw [h1, h2, h3]; exact h.logged, by rw [h2, h3]; exact h.bound,
      fun r t hp => by rw [h2, h3]; exact h4 r t hp⟩
  cases a with
  | poll =>
    simp only [SelLoop.step] at hs
    split at hs <;> try contradiction
    rename_i d br todo hp
    cases br with
    | timer => simp only [SelLoop.pollBranch] at hs; split at hs <;> cases hs <;> exact keep _ rfl rfl rfl (by simp)
    | signal => simp only [SelLoop.pollBranch] at hs; split at hs <;> cases hs <;> exact keep _ rfl rfl rfl (by simp)
    | stream =>
      simp only [SelLoop.pollBranch] at hs
      rcases stream_poll_cases m.stream 0 with ⟨l, hl, e⟩ | ⟨hl, hr, e⟩ | ⟨hl, hr, e⟩ <;> simp only [e] at hs
      · cases hs
        have hlt := (List.getElem?_eq_some_iff.1 hl).1
        refine ⟨?_, hlt, by simp⟩
        simp only [List.take_succ, hl, h.logged]
        rfl
      · split at hs <;> cases hs
        rename_i r hr
        exact keep _ rfl rfl rfl (fun r' t he => by
          cases he; exact ⟨hr, Nat.le_antisymm h.bound hl⟩)
      · cases hs; exact keep _ rfl rfl rfl (by simp)
  | push l =>
    have e : m' = { m with stream := (m.stream.push l).1 }.wakes (m.stream.push l).2 ∧ ∀ r t, m.pc ≠ .done r t := by
      simp only [SelLoop.step] at hs
      split at hs <;> cases hs
      exact ⟨rfl, by assumption⟩
    obtain ⟨rfl, hnd⟩ := e
    have hb := h.bound
    refine ⟨?_, by simp [SelLoop.wakes, StreamState.push]; omega, fun r t hp => absurd hp (hnd r t)⟩
    simp only [SelLoop.wakes, StreamState.push, h.logged]
    rw [List.take_append_of_le_length hb]
  | endStream r =>
    have e : m' = { m with stream := (m.stream.endSeq r).1 }.wakes (m.stream.endSeq r).2 ∧ ∀ r t, m.pc ≠ .done r t := by
      simp only [SelLoop.step] at hs
      split at hs <;> cases hs
      exact ⟨rfl, by assumption⟩
    obtain ⟨rfl, hnd⟩ := e
    refine keep _ rfl ?_ ?_ fun r t hp => absurd hp (hnd r t) <;>
      simp only [SelLoop.wakes, StreamState.endSeq] <;> split <;> rfl
  | rxPoll =>
    simp only [SelLoop.step] at hs
    split at hs <;> try contradiction
    split at hs <;> cases hs <;> exact ⟨h.logged, h.bound, h.done⟩
  | fire =>
    simp only [SelLoop.step] at hs
    split at hs <;> try contradiction
    split at hs <;> cases hs
    exact ⟨h.logged, h.bound, h.done⟩
  | wake => cases hs; exact ⟨h.logged, h.bound, h.done⟩
  | tick => cases hs; exact ⟨h.logged, h.bound, h.done⟩
  | cancel => cases hs; exact ⟨h.logged, h.bound, h.done⟩
  | _ =>
    simp only [SelLoop.step] at hs
    (repeat' split at hs) <;> cases hs <;> exact keep _ rfl rfl rfl (by simp)

/-- All invariants. -/
structure LoopInv (m : SelLoop) : Prop where
  wake : WakeInv m
  rx : RxLink m
  read : ReadInv m

theorem loopInv_start {m : SelLoop} (h : LoopStart m) : LoopInv m := by
  obtain ⟨h1, h2, h3, h4, h5, h6, h7⟩ := h
  exact ⟨⟨by simp [h1], by simp [h1]⟩, ⟨by simp [h5], by simp [h4], by simp [h5]⟩, ⟨by simp [h6, h7], by omega, by simp [h1]⟩⟩

theorem loopInv_step {m m' : SelLoop} {a : SelAct} (h : LoopInv m) (hs : m.step a = some m') : LoopInv m' :=
  ⟨wakeInv_step h.wake hs, rxLink_step h.rx hs, readInv_step h.read hs⟩

theorem loopInv_runs {m m' : SelLoop} {acts : List SelAct} (h : LoopInv m) (hs : runs SelLoop.step m acts = some m') :
    LoopInv m' :=
  runs_induct (P := fun _ m' => LoopInv m') h (fun _ _ _ _ _ ih hs => loopInv_step ih hs) hs

theorem loopInv_reach {m0 m : SelLoop} (h : LoopReach m0 m) : LoopInv m := by
  obtain ⟨h0, acts, h⟩ := h
  exact loopInv_runs (loopInv_start h0) h

theorem passedOn_reach {m0 m : SelLoop} (h : LoopReach m0 m) (hn : m0.job.isNotified = false) : PassedOn m := by
  obtain ⟨h0, acts, h⟩ := h
  refine runs_induct (P := fun _ m => PassedOn m) ?_ (fun _ _ _ _ _ ih hs => passedOn_step ih hs) h
  exact ⟨by simp [hn], by simp [h0.sig], by simp [hn]⟩

/-- Timeouts take their time, if the loop began at `t`. -/
structure TimeInv (t : Time) (limit : Nat) (m : SelLoop) : Prop where
  same : m.timeout = limit
  now : t ≤ m.now
  polling : ∀ d todo, m.pc = .polling d todo → t + limit ≤ d
  pending : ∀ d, m.pc = .pending d → t + limit ≤ d
  job : m.job.signal ≠ some .timeout
  told : m.sig.signal = some .timeout → t + limit ≤ m.now

theorem timeInv_step {t : Time} {n : Nat} {m m' : SelLoop} {a : SelAct} (h : TimeInv t n m) (hs : m.step a = some m') :
    TimeInv t n m' := by
  obtain ⟨h1, h2, h3, h4, h5, h6⟩ := h
  cases a with
  | poll =>
    simp only [SelLoop.step] at hs
    split at hs <;> try contradiction
    rename_i d br todo hp
    have hd := h3 _ _ hp
    cases br with
    | timer =>
      simp only [SelLoop.pollBranch] at hs
      split at hs <;> cases hs
      · rename_i hle
        exact ⟨h1, h2, by simp, by simp, h5, fun _ => Nat.le_trans hd hle⟩
      · exact ⟨h1, h2, fun d' todo' he => by cases he; exact hd, by simp, h5, h6⟩
    | signal =>
      have hk := sig_poll_signal m.job 0
      simp only [SelLoop.pollBranch] at hs
      split at hs <;> cases hs
      · rename_i job v hj
        rw [hj] at hk
        have hv : m.job.signal = some v := by
          simp only [SigState.poll] at hj
          split at hj
          · cases hj
          · split at hj <;> cases hj
            assumption
        refine ⟨h1, h2, by simp, by simp, ?_, ?_⟩
        · show job.signal ≠ _
          rw [hk]; exact h5
        · have e := setSig_signal { m with job := job } v
          intro he
          have he : ({ m with job := job }.setSig v).sig.signal = some .timeout := he
          rw [e] at he
          cases hg : m.sig.signal with
          | none =>
            simp only [hg, Option.getD_none, Option.some.injEq] at he
            rw [he] at hv; exact absurd hv h5
          | some u =>
            simp only [hg, Option.getD_some, Option.some.injEq] at he
            exact h6 (by rw [hg, he])
      · rename_i job hj
        rw [hj] at hk
        refine ⟨h1, h2, fun d' todo' he => by cases he; exact hd, by simp, ?_, h6⟩
        show job.signal ≠ _
        rw [hk]; exact h5
    | stream =>
      simp only [SelLoop.pollBranch] at hs
      rcases stream_poll_cases m.stream 0 with ⟨l, hl, e⟩ | ⟨hl, hr, e⟩ | ⟨hl, hr, e⟩ <;> simp only [e] at hs
      · cases hs; exact ⟨h1, h2, by simp, by simp, h5, h6⟩
      · split at hs <;> cases hs; exact ⟨h1, h2, by simp, by simp, h5, h6⟩
      · cases hs; exact ⟨h1, h2, fun d' todo' he => by cases he; exact hd, by simp, h5, h6⟩
  | select order =>
    simp only [SelLoop.step] at hs
    (repeat' split at hs) <;> cases hs
    exact ⟨h1, h2, fun d' todo' he => by cases he; rw [h1]; exact Nat.add_le_add_right h2 _, by simp, h5, h6⟩
  | park =>
    simp only [SelLoop.step] at hs
    split at hs <;> cases hs
    rename_i d hp
    exact ⟨h1, h2, by simp, fun d' he => by cases he; exact h3 _ _ hp, h5, h6⟩
  | repoll order =>
    simp only [SelLoop.step] at hs
    split at hs <;> try contradiction
    rename_i d hp
    split at hs <;> cases hs
    exact ⟨h1, h2, fun d' todo' he => by cases he; exact h4 _ hp, by simp, h5, h6⟩
  | hookDone =>
    simp only [SelLoop.step] at hs
    split at hs <;> cases hs
    exact ⟨h1, h2, by simp, by simp, h5, h6⟩
  | tick k =>
    cases hs
    exact ⟨h1, Nat.le_trans h2 (Nat.le_add_right _ _), h3, h4, h5, fun he => Nat.le_trans (h6 he) (Nat.le_add_right _ _)⟩
  | cancel =>
    cases hs
    refine ⟨h1, h2, h3, h4, ?_, h6⟩
    simp only [SelLoop.wakes, SigState.set]
    split
    · exact h5
    · simp
  | rxPoll =>
    have hk := sig_poll_signal m.sig 1
    simp only [SelLoop.step] at hs
    split at hs <;> try contradiction
    split at hs <;> cases hs <;> rename_i hj <;> rw [hj] at hk <;>
      exact ⟨h1, h2, h3, h4, h5, fun he => h6 (hk ▸ he)⟩
  | _ =>
    simp only [SelLoop.step] at hs
    (repeat' split at hs) <;> cases hs <;> exact ⟨h1, h2, h3, h4, h5, h6⟩

theorem timeInv_reach {m0 m : SelLoop} (h : LoopReach m0 m) (hn : m0.job.signal ≠ some .timeout) :
    TimeInv m0.now m0.timeout m := by
  obtain ⟨h0, acts, h⟩ := h
  refine runs_induct (P := fun _ m => TimeInv m0.now m0.timeout m) ?_ (fun _ _ _ _ _ ih hs => timeInv_step ih hs) h
  exact ⟨rfl, Nat.le_refl _, by simp [h0.pc], by simp [h0.pc], hn, by simp [h0.sig]⟩

/-- A sleeping task has nothing to do. -/
theorem asleep_inv {m : SelLoop} (h : LoopInv m) (ha : Asleep m) :
    ∃ d, m.pc = .pending d ∧ m.timer = some d ∧ unread m = [] ∧ m.stream.result = none ∧ m.stream.waker = some 0 ∧
      (m.job.isNotified = true ∨ (m.job.signal = none ∧ m.job.waker = some 0)) := by
  obtain ⟨⟨d, hd⟩, hw⟩ := ha
  have hr := h.wake.pending d hd hw
  obtain ⟨s1, s2, s3⟩ := hr .stream
  exact ⟨d, hd, hr .timer, by simpa [unread] using s2, s3, s1, hr .signal⟩

/-! ## The loop can always end once the stream has -/

/-- `m'` is what the engine makes of `m`: the stream as others wrote it is the same, no less is read. -/
structure EngineTo (m m' : SelLoop) : Prop where
  logs : m'.stream.logs = m.stream.logs
  result : m'.stream.result = m.stream.result
  more : m.stream.index ≤ m'.stream.index

theorem EngineTo.trans {a b c : SelLoop} (h : EngineTo a b) (h' : EngineTo b c) : EngineTo a c :=
  ⟨h'.logs.trans h.logs, h'.result.trans h.result, Nat.le_trans h.more h'.more⟩

theorem engine_step_to {m m' : SelLoop} {a : SelAct} (ha : engineMove a = true) (hs : m.step a = some m') :
    EngineTo m m' := by
  cases a with
  | poll =>
    simp only [SelLoop.step] at hs
    split at hs <;> try contradiction
    rename_i d br todo hp
    cases br with
    | timer => simp only [SelLoop.pollBranch] at hs; split at hs <;> cases hs <;> exact ⟨rfl, rfl, Nat.le_refl _⟩
    | signal => simp only [SelLoop.pollBranch] at hs; split at hs <;> cases hs <;> exact ⟨rfl, rfl, Nat.le_refl _⟩
    | stream =>
      simp only [SelLoop.pollBranch] at hs
      rcases stream_poll_cases m.stream 0 with ⟨l, hl, e⟩ | ⟨hl, hr, e⟩ | ⟨hl, hr, e⟩ <;> simp only [e] at hs
      · cases hs; exact ⟨rfl, rfl, Nat.le_succ _⟩
      · split at hs <;> cases hs; exact ⟨rfl, rfl, Nat.le_refl _⟩
      · cases hs; exact ⟨rfl, rfl, Nat.le_refl _⟩
  | select => simp only [SelLoop.step] at hs; (repeat' split at hs) <;> cases hs; exact ⟨rfl, rfl, Nat.le_refl _⟩
  | park => simp only [SelLoop.step] at hs; (repeat' split at hs) <;> cases hs; exact ⟨rfl, rfl, Nat.le_refl _⟩
  | repoll => simp only [SelLoop.step] at hs; (repeat' split at hs) <;> cases hs; exact ⟨rfl, rfl, Nat.le_refl _⟩
  | hookDone => simp only [SelLoop.step] at hs; (repeat' split at hs) <;> cases hs; exact ⟨rfl, rfl, Nat.le_refl _⟩
  | _ => simp [engineMove] at ha

/-- The engine gets from `m` to `m'` by itself. -/
def ByEngine (m m' : SelLoop) : Prop :=
  ∃ acts, acts.all engineMove = true ∧ runs SelLoop.step m acts = some m'

theorem byEngine_refl (m : SelLoop) : ByEngine m m := ⟨[], rfl, rfl⟩

theorem byEngine_cons {m m1 m' : SelLoop} {a : SelAct} (ha : engineMove a = true) (hs : m.step a = some m1)
    (h : ByEngine m1 m') : ByEngine m m' := by
  obtain ⟨acts, h1, h2⟩ := h
  exact ⟨a :: acts, by simp [ha, h1], by simp [runs, hs, h2]⟩

theorem byEngine_trans {a b c : SelLoop} (h : ByEngine a b) (h' : ByEngine b c) : ByEngine a c := by
  obtain ⟨p, p1, p2⟩ := h
  obtain ⟨q, q1, q2⟩ := h'
  exact ⟨p ++ q, by simp [List.all_append, p1, q1], by rw [runs_append, p2]; exact q2⟩

theorem byEngine_to {a b : SelLoop} (h : ByEngine a b) : EngineTo a b := by
  obtain ⟨acts, h1, h2⟩ := h
  induction acts generalizing a with
  | nil => cases h2; exact ⟨rfl, rfl, Nat.le_refl _⟩
  | cons x xs ih =>
    simp only [List.all_cons, Bool.and_eq_true] at h1
    simp only [runs] at h2
    split at h2 <;> try contradiction
    rename_i s' hs
    exact (engine_step_to h1.1 hs).trans (ih h1.2 h2)

theorem byEngine_inv {a b : SelLoop} (h : ByEngine a b) (hi : LoopInv a) : LoopInv b := by
  obtain ⟨acts, -, h2⟩ := h
  exact loopInv_runs hi h2

/-- About to poll the stream, or over. -/
def AtStream (m : SelLoop) : Prop :=
  (∃ d, m.pc = .polling d [.stream, .timer, .signal]) ∨ ∃ r t, m.pc = .done r t

theorem top_stream {m : SelLoop} (h : m.pc = .top) : ∃ m', ByEngine m m' ∧ AtStream m' := by
  refine ⟨{ m with pc := .polling (m.now + m.timeout) [.stream, .timer, .signal] },
    byEngine_cons (a := .select [.stream, .timer, .signal]) rfl ?_ (byEngine_refl _), .inl ⟨_, rfl⟩⟩
  simp only [SelLoop.step, h]
  rfl

theorem hook_stream {m : SelLoop} (h : m.pc = .hook) : ∃ m', ByEngine m m' ∧ AtStream m' := by
  obtain ⟨m', h1, h2⟩ := top_stream (m := { m with pc := .top }) rfl
  exact ⟨m', byEngine_cons (a := .hookDone) rfl (by simp [SelLoop.step, h]) h1, h2⟩

theorem pending_stream {m : SelLoop} {d : Time} (h : m.pc = .pending d) (hw : m.woken = true) :
    ∃ m', ByEngine m m' ∧ AtStream m' := by
  refine ⟨{ m with pc := .polling d [.stream, .timer, .signal], woken := false },
    byEngine_cons (a := .repoll [.stream, .timer, .signal]) rfl ?_ (byEngine_refl _), .inl ⟨_, rfl⟩⟩
  simp only [SelLoop.step, h, hw]
  rfl

theorem pollBranch_pc {m : SelLoop} (hr : m.stream.result.isSome) (d : Time) (todo : List Branch) (b : Branch) :
    ∃ m1, m.pollBranch d todo b = some m1 ∧
      (m1.pc = .top ∨ m1.pc = .hook ∨ (∃ r t, m1.pc = .done r t) ∨ m1.pc = .polling d todo) := by
  cases b with
  | timer =>
    simp only [SelLoop.pollBranch]
    split
    · exact ⟨_, rfl, .inl rfl⟩
    · exact ⟨_, rfl, .inr (.inr (.inr rfl))⟩
  | signal =>
    simp only [SelLoop.pollBranch]
    split
    · exact ⟨_, rfl, .inl rfl⟩
    · exact ⟨_, rfl, .inr (.inr (.inr rfl))⟩
  | stream =>
    obtain ⟨r, hr⟩ := Option.isSome_iff_exists.1 hr
    simp only [SelLoop.pollBranch, hr]
    split
    · exact ⟨_, rfl, .inr (.inl rfl)⟩
    · exact ⟨_, rfl, .inr (.inr (.inl ⟨_, _, rfl⟩))⟩
    · exact ⟨_, rfl, .inr (.inr (.inr rfl))⟩

theorem polling_stream {m : SelLoop} {d : Time} {todo : List Branch} (hi : LoopInv m) (hr : m.stream.result.isSome)
    (h : m.pc = .polling d todo) : ∃ m', ByEngine m m' ∧ AtStream m' := by
  induction todo generalizing m with
  | nil =>
    have hs : m.step .park = some { m with pc := .pending d } := by simp [SelLoop.step, h]
    have hi' := loopInv_step hi hs
    have hw : m.woken = true := by
      rcases Bool.eq_false_or_eq_true m.woken with hw | hw
      · exact hw
      · obtain ⟨_, _, _, _, hn, _⟩ := asleep_inv hi' ⟨⟨d, rfl⟩, hw⟩
        simp only at hn
        simp [hn] at hr
    obtain ⟨m', h1, h2⟩ := pending_stream (m := { m with pc := .pending d }) rfl hw
    exact ⟨m', byEngine_cons (a := .park) rfl hs h1, h2⟩
  | cons b todo ih =>
    have hs : m.step .poll = m.pollBranch d todo b := by simp [SelLoop.step, h]
    obtain ⟨m1, h1, hp⟩ := pollBranch_pc hr d todo b
    have hs1 : m.step .poll = some m1 := hs.trans h1
    rcases hp with hp | hp | hp | hp
    · obtain ⟨m', a, b⟩ := top_stream hp; exact ⟨m', byEngine_cons rfl hs1 a, b⟩
    · obtain ⟨m', a, b⟩ := hook_stream hp; exact ⟨m', byEngine_cons rfl hs1 a, b⟩
    · exact ⟨m1, byEngine_cons rfl hs1 (byEngine_refl _), .inr hp⟩
    · have e := engine_step_to (a := .poll) rfl hs1
      obtain ⟨m', a, b⟩ := ih (loopInv_step hi hs1) (by rw [e.result]; exact hr) hp
      exact ⟨m', byEngine_cons rfl hs1 a, b⟩

theorem to_stream {m : SelLoop} (hi : LoopInv m) (hr : m.stream.result.isSome) : ∃ m', ByEngine m m' ∧ AtStream m' := by
  cases hp : m.pc with
  | top => exact top_stream hp
  | hook => exact hook_stream hp
  | polling d todo => exact polling_stream hi hr hp
  | pending d =>
    refine pending_stream hp ?_
    rcases Bool.eq_false_or_eq_true m.woken with hw | hw
    · exact hw
    · obtain ⟨_, _, _, _, hn, _⟩ := asleep_inv hi ⟨⟨d, hp⟩, hw⟩
      simp [hn] at hr
  | done r t => exact ⟨m, byEngine_refl _, .inr ⟨r, t, hp⟩⟩

/-- With the stream ended, the engine can end the loop by itself, having read everything. -/
theorem engine_ends {m : SelLoop} {r : RunResult} (hi : LoopInv m) (hr : m.stream.result = some r) :
    ∃ m' t, ByEngine m m' ∧ m'.pc = .done r t ∧ m'.logged = m.stream.logs := by
  obtain ⟨n, hn⟩ : ∃ n, n = m.stream.logs.length - m.stream.index := ⟨_, rfl⟩
  induction n using Nat.strongRecOn generalizing m with
  | _ n ih =>
    obtain ⟨m1, b1, at1⟩ := to_stream hi (by simp [hr])
    have e1 := byEngine_to b1
    have i1 := byEngine_inv b1 hi
    rcases at1 with ⟨d, hd⟩ | ⟨r', t, hd⟩
    · rcases stream_poll_cases m1.stream 0 with ⟨l, hl, e⟩ | ⟨hl, hr', e⟩ | ⟨hl, hr', e⟩
      · have hs : m1.step .poll = some { m1 with
            stream := { m1.stream with waker := some 0, index := m1.stream.index + 1 }
            woken := true, logged := m1.logged ++ [l], pc := .hook, timer := none } := by
          simp only [SelLoop.step, hd, SelLoop.pollBranch, e]
        have hlt := (List.getElem?_eq_some_iff.1 hl).1
        obtain ⟨m', t, b', p', l'⟩ := ih _ (by
            have := e1.logs; have := e1.more
            rw [hn, ← e1.logs]
            show m1.stream.logs.length - (m1.stream.index + 1) < _
            omega) (loopInv_step i1 hs) (by rw [← hr, ← e1.result]) rfl
        exact ⟨m', t, byEngine_trans b1 (byEngine_cons rfl hs b'), p', by rw [l', ← e1.logs]⟩
      · have hr1 : m1.stream.result = some r := by rw [e1.result, hr]
        have hs : m1.step .poll = some { m1 with
            stream := { m1.stream with waker := some 0 }, pc := .done r m1.now, timer := none } := by
          simp only [SelLoop.step, hd, SelLoop.pollBranch, e, hr1]
        refine ⟨_, _, byEngine_trans b1 (byEngine_cons rfl hs (byEngine_refl _)), rfl, ?_⟩
        have := i1.read.logged
        simp only [this, e1.logs]
        rw [e1.logs] at hl
        exact List.take_of_length_le hl
      · rw [e1.result, hr] at hr'; cases hr'
    · obtain ⟨q1, q2⟩ := i1.read.done r' t hd
      rw [e1.result, hr] at q1
      cases q1
      refine ⟨m1, t, b1, hd, ?_⟩
      rw [i1.read.logged, e1.logs, q2, e1.logs, List.take_length]

end AstroRun
