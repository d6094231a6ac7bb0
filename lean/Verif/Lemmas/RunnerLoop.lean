import Verif.Lemmas.Run
import Verif.Lemmas.SelectLoop
import Verif.Lemmas.ClientLoop
import Verif.Spec.RunnerLoop

/-! # Lemmas about the task of the local runner, poll by poll -/

namespace AstroRun
open Spec

/-- The step's signal was found not set and holds the task's waker. -/
def SigHeld (s : SigState) : Prop := s.signal = none ∧ s.waker = some 0

/-- Branch `b` was found pending and has left a waker behind, or is disabled. -/
def RunHeld (m : RunLoop) : RunBranch → Prop
  | .command => m.run.pc = .select .okDone ∨ (m.run.pc = .select .reading ∧ m.outWaits = true ∧ m.errWaits = true) ∨
      (m.run.pc = .select .waiting ∧ m.exitWaits = true)
  | .signal => SigHeld m.run.sig

/-- The wakers that should be there. -/
def RunWakers (m : RunLoop) : Prop :=
  m.woken = false → match m.pc with
    | .outside | .top => True
    | .polling todo => ∀ b, b ∉ todo → RunHeld m b
    | .command todo => RunBranch.signal ∉ todo → SigHeld m.run.sig
    | .pipes todo inner => (RunBranch.signal ∉ todo → SigHeld m.run.sig) ∧ (PipeBranch.out ∉ inner → m.outWaits = true) ∧
        (PipeBranch.err ∉ inner → m.errWaits = true)
    | .pending => ∀ b, RunHeld m b

/-- Where the task is. -/
def RunPlace (m : RunLoop) : Prop :=
  match m.pc with
  | .outside => ∀ c, m.run.pc ≠ .select c
  | .command _ => (∃ c, m.run.pc = .select c) ∧ m.run.pc ≠ .select .okDone
  | .pipes _ _ => m.run.pc = .select .reading
  | _ => ∃ c, m.run.pc = .select c

/-- Nobody who holds a waker is ready. -/
structure RunQuiet (m : RunLoop) : Prop where
  out : m.outWaits = true → m.outReady = false
  err : m.errWaits = true → m.errReady = false
  exit : m.exitWaits = true → m.exitReady = false

/-- The task has not left its `select!` yet. -/
def LocalRun.Early (l : LocalRun) : Prop :=
  match l.pc with
  | .start | .mkdir | .entry | .select _ => True
  | _ => False

structure RunInv (m : RunLoop) : Prop where
  place : RunPlace m
  quiet : RunQuiet m
  wakers : RunWakers m
  fresh : m.run.Early → m.run.sig.isNotified = false

theorem early_select {l : LocalRun} {c : CmdPc} (h : l.pc = .select c) : l.Early := by
  unfold LocalRun.Early; rw [h]; trivial

theorem mem_bothRun {order : List RunBranch} (h : bothRun order = true) (b : RunBranch) : b ∈ order := by
  simp only [bothRun, Bool.or_eq_true, decide_eq_true_eq] at h
  rcases h with rfl | rfl <;> cases b <;> simp

theorem mem_bothPipes {order : List PipeBranch} (h : bothPipes order = true) (b : PipeBranch) : b ∈ order := by
  simp only [bothPipes, Bool.or_eq_true, decide_eq_true_eq] at h
  rcases h with rfl | rfl <;> cases b <;> simp

/-- What `notify` does. -/
theorem runNotify_frame (m : RunLoop) :
    m.notify.run = m.run ∧ m.notify.pc = m.pc ∧ m.notify.outBroken = m.outBroken ∧ m.notify.errBroken = m.errBroken ∧
      m.notify.waitBroken = m.waitBroken ∧
      (m.notify.woken = false → m.notify = m) ∧ RunQuiet m.notify := by
  unfold RunLoop.notify
  split
  · rename_i h
    refine ⟨rfl, rfl, rfl, rfl, rfl, by simp, ?_, ?_, ?_⟩
    · intro h; simp only [Bool.and_eq_true, Bool.not_eq_true'] at h; exact h.2
    · intro h; simp only [Bool.and_eq_true, Bool.not_eq_true'] at h; exact h.2
    · intro h; simp only [Bool.and_eq_true, Bool.not_eq_true'] at h; exact h.2
  · rename_i h
    simp only [Bool.or_eq_true, Bool.and_eq_true, not_or, not_and, Bool.not_eq_true] at h
    exact ⟨rfl, rfl, rfl, rfl, rfl, fun _ => rfl, h.1.1, h.1.2, h.2⟩

/-- `notify` keeps the invariant. -/
theorem runNotify_inv {m : RunLoop} (h1 : RunPlace m) (h2 : RunWakers m) (h3 : m.run.Early → m.run.sig.isNotified = false) :
    RunInv m.notify := by
  obtain ⟨f1, f2, -, -, -, f3, f4⟩ := runNotify_frame m
  refine ⟨?_, f4, ?_, ?_⟩
  · unfold RunPlace at h1 ⊢; rw [f1, f2]; exact h1
  · intro hw
    have e := f3 hw
    rw [e] at hw ⊢
    exact h2 hw
  · rw [f1]; exact h3

/-- Moves of the surroundings. -/
theorem env_frame {l l' : LocalRun} {a : LocalAct} (ha : a.own = false) (hs : l.step a = some l') :
    l'.pc = l.pc ∧ l'.sig.isNotified = l.sig.isNotified ∧
      ((∃ v, a = .setSignal v ∧ l'.sig = (l.sig.set v).state) ∨ ((∀ v, a ≠ .setSignal v) ∧ l'.sig = l.sig)) := by
  cases a <;> simp only [LocalAct.own, Bool.true_eq_false] at ha <;> simp only [LocalRun.step] at hs
  case setSignal v =>
    cases hs
    exact ⟨rfl, set_notified_eq _ _, .inl ⟨v, rfl, rfl⟩⟩
  all_goals
    (repeat' split at hs) <;> first
      | contradiction
      | (cases hs; exact ⟨rfl, rfl, .inr ⟨by simp, rfl⟩⟩)

/-- Moves of the task outside its `select!`. -/
theorem seq_frame {l l' : LocalRun} {a : LocalAct} (ha : a.sequential = true) (hs : l.step a = some l') :
    l'.child = l.child ∧ l'.sig = l.sig ∧ (l'.Early → l.Early) := by
  cases a <;> simp only [LocalAct.sequential, Bool.false_eq_true] at ha <;> simp only [LocalRun.step] at hs
  all_goals
    (repeat' split at hs) <;> first
      | contradiction
      | (cases hs; refine ⟨rfl, rfl, fun hc => ?_⟩; unfold LocalRun.Early at hc ⊢; simp_all)

theorem readOut_some {l l' : LocalRun} (h : l.step .readOut = some l') :
    l.pc = .select .reading ∧ l'.sig = l.sig ∧ ∃ ch, l.child = some ch ∧
      ((l'.pc = .select .reading ∧ ∃ x rest, ch.outQ = x :: rest ∧ l'.child = some { ch with outQ := rest }) ∨
        (l'.pc = .select .waiting ∧ ch.outQ = [] ∧ ch.outOpen = false ∧ l'.child = l.child)) := by
  simp only [LocalRun.step] at h
  split at h <;> try contradiction
  rename_i hp
  split at h <;> try contradiction
  rename_i ch hc
  split at h
  · rename_i x rest he
    cases h
    exact ⟨hp, rfl, ch, hc, .inl ⟨hp, x, rest, he, rfl⟩⟩
  · rename_i he
    split at h <;> cases h
    rename_i ho
    exact ⟨hp, rfl, ch, hc, .inr ⟨rfl, he, by simpa using ho, rfl⟩⟩

theorem readErr_some {l l' : LocalRun} (h : l.step .readErr = some l') :
    l.pc = .select .reading ∧ l'.sig = l.sig ∧ ∃ ch, l.child = some ch ∧
      ((l'.pc = .select .reading ∧ ∃ x rest, ch.errQ = x :: rest ∧ l'.child = some { ch with errQ := rest }) ∨
        (l'.pc = .select .waiting ∧ ch.errQ = [] ∧ ch.errOpen = false ∧ l'.child = l.child)) := by
  simp only [LocalRun.step] at h
  split at h <;> try contradiction
  rename_i hp
  split at h <;> try contradiction
  rename_i ch hc
  split at h
  · rename_i x rest he
    cases h
    exact ⟨hp, rfl, ch, hc, .inl ⟨hp, x, rest, he, rfl⟩⟩
  · rename_i he
    split at h <;> cases h
    rename_i ho
    exact ⟨hp, rfl, ch, hc, .inr ⟨rfl, he, by simpa using ho, rfl⟩⟩

theorem readOut_none {m : RunLoop} (hp : m.run.pc = .select .reading) (hb : m.outBroken = none) :
    m.run.step .readOut = none ↔ m.outReady = false := by
  simp only [LocalRun.step, hp, if_true, RunLoop.outReady, hb, Option.isSome_none, Bool.false_or]
  cases m.run.child with
  | none => simp
  | some ch =>
    cases hq : ch.outQ with
    | nil => cases ho : ch.outOpen <;> simp [hq, ho]
    | cons x rest => simp [hq]

theorem readErr_none {m : RunLoop} (hp : m.run.pc = .select .reading) (hb : m.errBroken = none) :
    m.run.step .readErr = none ↔ m.errReady = false := by
  simp only [LocalRun.step, hp, if_true, RunLoop.errReady, hb, Option.isSome_none, Bool.false_or]
  cases m.run.child with
  | none => simp
  | some ch =>
    cases hq : ch.errQ with
    | nil => cases ho : ch.errOpen <;> simp [hq, ho]
    | cons x rest => simp [hq]

theorem waitOk_none {m : RunLoop} (hp : m.run.pc = .select .waiting) (hb : m.waitBroken = false) :
    m.run.step .waitOk = none ↔ m.exitReady = false := by
  simp only [LocalRun.step, hp, if_true, RunLoop.exitReady, hb, Bool.false_or]
  cases m.run.child with
  | none => simp
  | some ch => cases he : ch.exit <;> simp [he]

theorem waitOk_some {l l' : LocalRun} (h : l.step .waitOk = some l') :
    l.pc = .select .waiting ∧ l'.pc = .select .okDone ∧ l'.sig = l.sig ∧ l'.child = l.child := by
  simp only [LocalRun.step] at h
  split at h <;> try contradiction
  rename_i hp
  split at h <;> cases h
  exact ⟨hp, rfl, rfl, rfl⟩

theorem sigReady_some {l l' : LocalRun} (h : l.step .sigReady = some l') :
    (∀ c, l'.pc ≠ .select c) ∧ l'.child = l.child := by
  simp only [LocalRun.step] at h
  split at h <;> try contradiction
  split at h <;> try contradiction
  split at h <;> cases h <;> exact ⟨by simp, rfl⟩

theorem sigReady_none {l : LocalRun} {c : CmdPc} (hp : l.pc = .select c) (hn : l.sig.isNotified = false) :
    l.step .sigReady = none ↔ l.sig.signal = none := by
  simp only [LocalRun.step, hp, SigState.poll, hn]
  cases l.sig.signal with
  | none => simp
  | some v => cases l.kind <;> simp

theorem after_select {m : RunLoop} {stay : RunSel} {l : LocalRun} {c : CmdPc} (hc : l.pc = .select c) :
    m.after stay l = { m with run := l, pc := stay } := by simp [RunLoop.after, hc]

theorem after_outside {m : RunLoop} {stay : RunSel} {l : LocalRun} (hc : ∀ c, l.pc ≠ .select c) :
    m.after stay l = { m with run := l, pc := .outside } := by
  cases h : l.pc with
  | select c => exact absurd h (hc c)
  | _ => simp only [RunLoop.after, h]

theorem quiet_of {m m' : RunLoop} (h : RunQuiet m) (h1 : m'.outWaits = m.outWaits) (h2 : m'.errWaits = m.errWaits)
    (h3 : m'.exitWaits = m.exitWaits) (h4 : m'.outReady = m.outReady) (h5 : m'.errReady = m.errReady) (h6 : m'.exitReady = m.exitReady) :
    RunQuiet m' := by
  refine ⟨?_, ?_, ?_⟩
  · rw [h1, h4]; exact h.out
  · rw [h2, h5]; exact h.err
  · rw [h3, h6]; exact h.exit

theorem ready_of {m m' : RunLoop} (hc : m'.run.child = m.run.child) (h1 : m'.outBroken = m.outBroken) (h2 : m'.errBroken = m.errBroken)
    (h3 : m'.waitBroken = m.waitBroken) : m'.outReady = m.outReady ∧ m'.errReady = m.errReady ∧ m'.exitReady = m.exitReady := by
  simp only [RunLoop.outReady, RunLoop.errReady, RunLoop.exitReady, hc, h1, h2, h3, and_self]

theorem runInv_step {m m' : RunLoop} {a : RunLoopAct} (h : RunInv m) (hs : m.step a = some m') : RunInv m' := by
  obtain ⟨hp, hq, hw, hf⟩ := h
  have wait : ∀ x, m.outWaits = x → m.outReady = true → x = false := by
    intro x hx hr
    cases x with
    | false => rfl
    | true => rw [hq.out hx] at hr; cases hr
  have waite : ∀ x, m.errWaits = x → m.errReady = true → x = false := by
    intro x hx hr
    cases x with
    | false => rfl
    | true => rw [hq.err hx] at hr; cases hr
  have waitx : ∀ x, m.exitWaits = x → m.exitReady = true → x = false := by
    intro x hx hr
    cases x with
    | false => rfl
    | true => rw [hq.exit hx] at hr; cases hr
  cases a with
  | own a =>
    simp only [RunLoop.step] at hs
    split at hs <;> try contradiction
    rename_i ha
    obtain ⟨l, hl, hs⟩ := Option.map_eq_some_iff.1 hs
    subst hs
    obtain ⟨k1, k2, k3⟩ := seq_frame ha.2 hl
    have hq' : ∀ x : RunLoop, x = { m with run := l, pc := x.pc } → RunQuiet x := by
      intro x hx
      obtain ⟨r1, r2, r3⟩ := ready_of (m := m) (m' := x) (by rw [hx]; exact k1) (by rw [hx]) (by rw [hx]) (by rw [hx])
      exact quiet_of hq (by rw [hx]) (by rw [hx]) (by rw [hx]) r1 r2 r3
    by_cases hc : ∃ c, l.pc = .select c
    · obtain ⟨c, hc⟩ := hc
      rw [after_select hc]
      exact ⟨⟨c, hc⟩, hq' _ rfl, fun _ => trivial, fun he => by simp only [k2]; exact hf (k3 he)⟩
    · have hc' : ∀ c, l.pc ≠ .select c := fun c h => hc ⟨c, h⟩
      rw [after_outside hc']
      exact ⟨hc', hq' _ rfl, fun _ => trivial, fun he => by simp only [k2]; exact hf (k3 he)⟩
  | select order =>
    simp only [RunLoop.step] at hs
    split at hs <;> try contradiction
    rename_i hpc
    split at hs <;> cases hs
    rename_i ho
    unfold RunPlace at hp; rw [hpc] at hp
    exact ⟨hp, ⟨hq.out, hq.err, hq.exit⟩, fun _ b hb => absurd (mem_bothRun ho b) hb, hf⟩
  | park =>
    simp only [RunLoop.step] at hs
    split at hs <;> cases hs
    rename_i hpc
    unfold RunPlace at hp; rw [hpc] at hp
    refine ⟨hp, ⟨hq.out, hq.err, hq.exit⟩, fun hk b => ?_, hf⟩
    have := hw hk
    rw [hpc] at this
    have := this b (by simp)
    cases b <;> exact this
  | repoll order =>
    simp only [RunLoop.step] at hs
    split at hs <;> try contradiction
    rename_i hpc
    split at hs <;> cases hs
    rename_i ho
    simp only [Bool.and_eq_true] at ho
    unfold RunPlace at hp; rw [hpc] at hp
    exact ⟨hp, ⟨hq.out, hq.err, hq.exit⟩, fun _ b hb => absurd (mem_bothRun ho.2 b) hb, hf⟩
  | wake =>
    cases hs
    exact ⟨hp, ⟨hq.out, hq.err, hq.exit⟩, fun hk => by simp at hk, hf⟩
  | breakOut e =>
    cases hs
    exact runNotify_inv (m := { m with outBroken := some e }) hp (fun hk => by have := hw hk; exact this) hf
  | breakErr e =>
    cases hs
    exact runNotify_inv (m := { m with errBroken := some e }) hp (fun hk => by have := hw hk; exact this) hf
  | breakWait =>
    cases hs
    exact runNotify_inv (m := { m with waitBroken := true }) hp (fun hk => by have := hw hk; exact this) hf
  | env a =>
    simp only [RunLoop.step] at hs
    split at hs <;> try contradiction
    rename_i ha
    obtain ⟨l, hl, hs⟩ := Option.map_eq_some_iff.1 hs
    subst hs
    obtain ⟨k1, k2, k3⟩ := env_frame (by simpa using ha) hl
    refine runNotify_inv (m := { m with run := l, woken := m.woken || a.wakesRunner m.run.sig }) ?_ ?_ ?_
    · unfold RunPlace at hp ⊢; simp only [k1]; exact hp
    · intro hk
      simp only [Bool.or_eq_false_iff] at hk
      have hw := hw hk.1
      have held : SigHeld m.run.sig → SigHeld l.sig := by
        intro hh
        rcases k3 with ⟨v, rfl, e⟩ | ⟨-, e⟩
        · have := hk.2
          simp [LocalAct.wakesRunner, SigState.set, hh.1, hh.2] at this
        · rw [e]; exact hh
      have heldb : ∀ b, RunHeld m b → RunHeld ({ m with run := l, woken := m.woken || a.wakesRunner m.run.sig } : RunLoop) b := by
        intro b hb
        cases b with
        | command => simp only [RunHeld, k1] at hb ⊢; exact hb
        | signal => exact held hb
      simp only
      split
      · trivial
      · trivial
      · rename_i hpc; simp only [hpc] at hw; exact fun b hb => heldb b (hw b hb)
      · rename_i hpc; simp only [hpc] at hw; exact fun hb => held (hw hb)
      · rename_i hpc; simp only [hpc] at hw; exact ⟨fun hb => held (hw.1 hb), hw.2.1, hw.2.2⟩
      · rename_i hpc; simp only [hpc] at hw; exact fun b => heldb b (hw b)
    · intro he
      have : m.run.Early := by unfold LocalRun.Early at he ⊢; rw [← k1]; exact he
      simp only [k2]
      exact hf this
  | spawn ok =>
    simp only [RunLoop.step] at hs
    split at hs <;> try contradiction
    rename_i todo hpc
    obtain ⟨l, hl, hs⟩ := Option.map_eq_some_iff.1 hs
    subst hs
    unfold RunPlace at hp; rw [hpc] at hp
    obtain ⟨⟨c, hc⟩, -⟩ := hp
    have hn := hf (early_select hc)
    have hww : m.woken = false → RunBranch.signal ∉ todo → SigHeld m.run.sig := fun hk => by have := hw hk; rw [hpc] at this; exact this
    cases ok with
    | true =>
      simp only [if_true, LocalRun.step] at hl
      split at hl <;> cases hl
      rw [after_select rfl]
      refine ⟨⟨⟨_, rfl⟩, by simp⟩, ⟨fun hx => ?_, fun hx => ?_, fun hx => ?_⟩, hww, fun _ => hn⟩
      · have := hq.out hx
        simp only [RunLoop.outReady, Bool.or_eq_false_iff] at this ⊢
        exact ⟨this.1, rfl, rfl⟩
      · have := hq.err hx
        simp only [RunLoop.errReady, Bool.or_eq_false_iff] at this ⊢
        exact ⟨this.1, rfl, rfl⟩
      · have := hq.exit hx
        simp only [RunLoop.exitReady, Bool.or_eq_false_iff] at this ⊢
        exact ⟨this.1, rfl⟩
    | false =>
      simp only [Bool.false_eq_true, if_false, LocalRun.step] at hl
      split at hl <;> cases hl
      rw [after_outside (by simp)]
      exact ⟨by simp [RunPlace], ⟨hq.out, hq.err, hq.exit⟩, fun _ => trivial, fun _ => hn⟩
  | inner order =>
    simp only [RunLoop.step] at hs
    split at hs <;> try contradiction
    rename_i todo hpc
    split at hs <;> cases hs
    rename_i ho
    refine ⟨ho.1, ⟨hq.out, hq.err, hq.exit⟩, fun hk => ?_, hf⟩
    have := hw hk
    rw [hpc] at this
    exact ⟨this, fun hb => absurd (mem_bothPipes ho.2 _) hb, fun hb => absurd (mem_bothPipes ho.2 _) hb⟩
  | poll =>
    simp only [RunLoop.step] at hs
    split at hs
    · -- the command's turn
      rename_i todo hpc
      cases hs
      unfold RunPlace at hp; rw [hpc] at hp
      by_cases hd : m.run.pc = .select .okDone
      · simp only [hd, if_true]
        refine ⟨⟨_, hd⟩, ⟨hq.out, hq.err, hq.exit⟩, fun hk b hb => ?_, hf⟩
        have := hw hk
        rw [hpc] at this
        cases b with
        | command => exact .inl hd
        | signal => exact this .signal (by simpa using hb)
      · simp only [if_neg hd]
        refine ⟨⟨hp, hd⟩, ⟨hq.out, hq.err, hq.exit⟩, fun hk hb => ?_, hf⟩
        have := hw hk
        rw [hpc] at this
        exact this .signal (by simpa using hb)
    · -- the signal's turn
      rename_i todo hpc
      unfold RunPlace at hp; rw [hpc] at hp
      obtain ⟨c, hc⟩ := hp
      have hn := hf (early_select hc)
      simp only [RunLoop.pollSignal] at hs
      split at hs <;> cases hs
      · rename_i l hl
        obtain ⟨k1, k2⟩ := sigReady_some hl
        rw [after_outside k1]
        obtain ⟨r1, r2, r3⟩ := ready_of (m := m) (m' := { m with run := l, pc := .outside }) k2 rfl rfl rfl
        refine ⟨k1, quiet_of hq rfl rfl rfl r1 r2 r3, fun _ => trivial, fun he => ?_⟩
        exfalso
        have hl' := hl
        simp only [LocalRun.step, hc] at hl'
        split at hl' <;> try contradiction
        split at hl' <;> cases hl' <;> exact he
      · rename_i hl
        have hnone := (sigReady_none hc hn).1 hl
        have e : (m.run.sig.poll 0).1 = { m.run.sig with waker := some 0 } := by simp [SigState.poll, hn, hnone]
        refine ⟨⟨c, hc⟩, ⟨hq.out, hq.err, hq.exit⟩, fun hk b hb => ?_, fun _ => by simp only [e]; exact hn⟩
        have := hw hk
        rw [hpc] at this
        cases b with
        | command => exact this .command (by simpa using hb)
        | signal => simp only [RunHeld, e]; exact ⟨hnone, rfl⟩
    · -- waiting for the process
      rename_i todo hpc
      split at hs <;> try contradiction
      rename_i hwt
      have hn := hf (early_select hwt)
      have hww : m.woken = false → RunBranch.signal ∉ todo → SigHeld m.run.sig := fun hk => by have := hw hk; rw [hpc] at this; exact this
      simp only [RunLoop.pollWait] at hs
      split at hs
      · rename_i hb
        obtain ⟨l, hl, hs⟩ := Option.map_eq_some_iff.1 hs
        subst hs
        simp only [LocalRun.step, hwt, if_true] at hl
        cases hl
        rw [after_outside (by simp)]
        exact ⟨by simp [RunPlace], ⟨hq.out, hq.err, hq.exit⟩, fun _ => trivial, fun _ => hn⟩
      · rename_i hb
        split at hs <;> cases hs
        · rename_i l hl
          obtain ⟨-, k1, k2, k3⟩ := waitOk_some hl
          rw [after_select k1]
          obtain ⟨r1, r2, r3⟩ := ready_of (m := m) (m' := { m with run := l, pc := .polling todo }) k3 rfl rfl rfl
          refine ⟨⟨_, k1⟩, quiet_of hq rfl rfl rfl r1 r2 r3, fun hk b hb => ?_, fun _ => by simp only [k2]; exact hn⟩
          cases b with
          | command => exact .inl k1
          | signal => simp only [RunHeld, k2]; exact hww hk hb
        · rename_i hl
          have hx := (waitOk_none hwt (by simpa using hb)).1 hl
          refine ⟨⟨_, hwt⟩, ⟨hq.out, hq.err, fun _ => hx⟩, fun hk b hb => ?_, hf⟩
          cases b with
          | command => exact .inr (.inr ⟨hwt, rfl⟩)
          | signal => exact hww hk hb
    · -- a pipe
      rename_i todo p inner hpc
      unfold RunPlace at hp; rw [hpc] at hp
      have hn := hf (early_select hp)
      have hww : m.woken = false → (RunBranch.signal ∉ todo → SigHeld m.run.sig) ∧ (PipeBranch.out ∉ p :: inner → m.outWaits = true) ∧
        (PipeBranch.err ∉ p :: inner → m.errWaits = true) := fun hk => by have := hw hk; rw [hpc] at this; exact this
      cases p with
      | out =>
        simp only [RunLoop.pollPipe] at hs
        split at hs
        · obtain ⟨l, hl, hs⟩ := Option.map_eq_some_iff.1 hs
          subst hs
          simp only [LocalRun.step, hp, if_true] at hl
          cases hl
          rw [after_select rfl]
          exact ⟨⟨⟨_, rfl⟩, by simp⟩, ⟨hq.out, hq.err, hq.exit⟩, fun hk => (hww hk).1, fun _ => hn⟩
        · rename_i hb
          split at hs <;> cases hs
          · rename_i l hl
            have hr : m.outReady = true := by
              rcases Bool.eq_false_or_eq_true m.outReady with h | h
              · exact h
              · rw [(readOut_none hp hb).2 h] at hl; cases hl
            have hno := wait _ rfl hr
            obtain ⟨-, k1, ch, k2, k3⟩ := readOut_some hl
            have hpl : ∃ c, l.pc = .select c ∧ c ≠ .okDone := by
              rcases k3 with ⟨e, -⟩ | ⟨e, -⟩ <;> exact ⟨_, e, by simp⟩
            obtain ⟨c, hc1, hc2⟩ := hpl
            have hrr : ({ m with run := l, pc := .command todo } : RunLoop).errReady = m.errReady ∧
                ({ m with run := l, pc := .command todo } : RunLoop).exitReady = m.exitReady := by
              rcases k3 with ⟨-, x, rest, -, e⟩ | ⟨-, -, -, e⟩
              · simp only [RunLoop.errReady, RunLoop.exitReady, e, k2, and_self]
              · simp only [RunLoop.errReady, RunLoop.exitReady, e, and_self]
            rw [after_select hc1]
            refine ⟨⟨⟨c, hc1⟩, by simp only [hc1]; simpa using hc2⟩,
              ⟨fun hx => by simp [hno] at hx, fun hx => ?_, fun hx => ?_⟩, fun hk hb => ?_, fun _ => by simp only [k1]; exact hn⟩
            · rw [hrr.1]; exact hq.err hx
            · rw [hrr.2]; exact hq.exit hx
            · simp only [k1]; exact (hww hk).1 hb
          · rename_i hl
            have hx := (readOut_none hp hb).1 hl
            refine ⟨hp, ⟨fun _ => hx, hq.err, hq.exit⟩, fun hk => ⟨(hww hk).1, fun _ => rfl, fun he => (hww hk).2.2 (by simpa using he)⟩, hf⟩
      | err =>
        simp only [RunLoop.pollPipe] at hs
        split at hs
        · obtain ⟨l, hl, hs⟩ := Option.map_eq_some_iff.1 hs
          subst hs
          simp only [LocalRun.step, hp, if_true] at hl
          cases hl
          rw [after_select rfl]
          exact ⟨⟨⟨_, rfl⟩, by simp⟩, ⟨hq.out, hq.err, hq.exit⟩, fun hk => (hww hk).1, fun _ => hn⟩
        · rename_i hb
          split at hs <;> cases hs
          · rename_i l hl
            have hr : m.errReady = true := by
              rcases Bool.eq_false_or_eq_true m.errReady with h | h
              · exact h
              · rw [(readErr_none hp hb).2 h] at hl; cases hl
            have hno := waite _ rfl hr
            obtain ⟨-, k1, ch, k2, k3⟩ := readErr_some hl
            have hpl : ∃ c, l.pc = .select c ∧ c ≠ .okDone := by
              rcases k3 with ⟨e, -⟩ | ⟨e, -⟩ <;> exact ⟨_, e, by simp⟩
            obtain ⟨c, hc1, hc2⟩ := hpl
            have hrr : ({ m with run := l, pc := .command todo } : RunLoop).outReady = m.outReady ∧
                ({ m with run := l, pc := .command todo } : RunLoop).exitReady = m.exitReady := by
              rcases k3 with ⟨-, x, rest, -, e⟩ | ⟨-, -, -, e⟩
              · simp only [RunLoop.outReady, RunLoop.exitReady, e, k2, and_self]
              · simp only [RunLoop.outReady, RunLoop.exitReady, e, and_self]
            rw [after_select hc1]
            refine ⟨⟨⟨c, hc1⟩, by simp only [hc1]; simpa using hc2⟩,
              ⟨fun hx => ?_, fun hx => by simp [hno] at hx, fun hx => ?_⟩, fun hk hb => ?_, fun _ => by simp only [k1]; exact hn⟩
            · rw [hrr.1]; exact hq.out hx
            · rw [hrr.2]; exact hq.exit hx
            · simp only [k1]; exact (hww hk).1 hb
          · rename_i hl
            have hx := (readErr_none hp hb).1 hl
            refine ⟨hp, ⟨hq.out, fun _ => hx, hq.exit⟩, fun hk => ⟨(hww hk).1, fun he => (hww hk).2.1 (by simpa using he), fun _ => rfl⟩, hf⟩
    · -- both pipes are pending
      rename_i todo hpc
      cases hs
      unfold RunPlace at hp; rw [hpc] at hp
      refine ⟨⟨_, hp⟩, ⟨hq.out, hq.err, hq.exit⟩, fun hk b hb => ?_, hf⟩
      have := hw hk
      rw [hpc] at this
      cases b with
      | command => exact .inr (.inl ⟨hp, this.2.1 (by simp), this.2.2 (by simp)⟩)
      | signal => exact this.1 hb
    · contradiction

theorem runInv_reach {p : RunPlan} {n : Nat} {acts : List RunLoopAct} {m : RunLoop} (h : TaskReach p n acts m) : RunInv m := by
  refine runs_induct (P := fun _ m => RunInv m) ?_ (fun _ _ _ _ _ h hs => runInv_step h hs) h
  exact ⟨by simp [RunPlace, LocalRun.initial], ⟨by simp, by simp, by simp⟩, fun _ => trivial, fun _ => rfl⟩

/-! ## No spinning -/

/-- How far the command is. -/
def CmdPc.stage : CmdPc → Nat
  | .notStarted => 3
  | .reading => 2
  | .waiting => 1
  | .okDone => 0

/-- What the task has to do, apart from its `select!`. -/
def LocalRun.toDo (l : LocalRun) : Nat :=
  match l.pc with
  | .start => l.plugins + 87
  | .mkdir => l.plugins + 86
  | .entry => l.plugins + 85
  | .select c => l.plugins + 5 + 20 * c.stage
  | .kill _ => l.plugins + 4
  | .remove => l.plugins + 3
  | .returned => l.plugins + 2
  | .hooks n => l.plugins - n + 1
  | .done => 0

/-- What is left of a poll. -/
def RunSel.rank : RunSel → Nat
  | .outside | .pending => 0
  | .top => 12
  | .polling todo => 5 * todo.length + 1
  | .command todo => 5 * todo.length + 5
  | .pipes todo inner => 5 * todo.length + 2 + inner.length

/-- How much the task has to do. -/
def RunLoop.work (m : RunLoop) : Nat :=
  20 * unreadLines m.run + m.run.toDo + (if m.woken then 12 else 0) + m.pc.rank

theorem bothRun_length {order : List RunBranch} (h : bothRun order = true) : order.length = 2 := by
  simp only [bothRun, Bool.or_eq_true, decide_eq_true_eq] at h
  rcases h with rfl | rfl <;> rfl

theorem bothPipes_length {order : List PipeBranch} (h : bothPipes order = true) : order.length = 2 := by
  simp only [bothPipes, Bool.or_eq_true, decide_eq_true_eq] at h
  rcases h with rfl | rfl <;> rfl

/-- No list of branches is longer than it should be. -/
def RunSel.Short : RunSel → Prop
  | .polling todo => todo.length ≤ 2
  | .command todo => todo.length ≤ 1
  | .pipes todo inner => todo.length ≤ 1 ∧ inner.length ≤ 2
  | _ => True

theorem unread_of {l l' : LocalRun} (h : l'.child = l.child) : unreadLines l' = unreadLines l := by
  simp only [unreadLines, unreadOut, unreadErr, h]

theorem seq_toDo {l l' : LocalRun} {a : LocalAct} (ha : a.sequential = true) (hs : l.step a = some l') :
    l'.toDo + (match l'.pc with | .select _ => 13 | _ => 1) ≤ l.toDo ∧ l'.plugins = l.plugins := by
  cases a <;> simp only [LocalAct.sequential, Bool.false_eq_true] at ha <;> simp only [LocalRun.step] at hs
  case hook =>
    split at hs <;> try contradiction
    rename_i n hp
    split at hs <;> cases hs
    · simp only [LocalRun.toDo, hp]; exact ⟨by omega, trivial⟩
    · simp only [LocalRun.toDo, hp]; exact ⟨by omega, trivial⟩
  case mkdirOk =>
    split at hs <;> try contradiction
    rename_i hp
    cases hs
    cases hk : l.kind <;> simp only [LocalRun.toDo, hp, CmdPc.stage] <;> exact ⟨by omega, trivial⟩
  all_goals
    (repeat' split at hs) <;> first
      | contradiction
      | (cases hs; simp_all [LocalRun.toDo, CmdPc.stage])

theorem runWork_step {m m' : RunLoop} {a : RunLoopAct} (hi : RunInv m) (hsh : m.pc.Short) (ha : taskMove a = true)
    (hs : m.step a = some m') : m'.work < m.work ∧ m'.pc.Short ∧ m'.run.plugins = m.run.plugins := by
  have hp := hi.place
  unfold RunPlace at hp
  cases a <;> simp only [taskMove, Bool.false_eq_true] at ha
  case own a =>
    simp only [RunLoop.step] at hs
    split at hs <;> try contradiction
    rename_i ha
    obtain ⟨l, hl, hs⟩ := Option.map_eq_some_iff.1 hs
    subst hs
    obtain ⟨k1, k2, k3⟩ := seq_frame ha.2 hl
    obtain ⟨k4, k5⟩ := seq_toDo ha.2 hl
    by_cases hc : ∃ c, l.pc = .select c
    · obtain ⟨c, hc⟩ := hc
      rw [after_select hc]
      simp only [hc] at k4
      simp only [RunLoop.work, unread_of k1, RunSel.rank, ha.1]
      exact ⟨by omega, trivial, k5⟩
    · have hc' : ∀ c, l.pc ≠ .select c := fun c h => hc ⟨c, h⟩
      rw [after_outside hc']
      have k4 : l.toDo + 1 ≤ m.run.toDo := by
        cases hq : l.pc with
        | select c => exact absurd hq (hc' c)
        | _ => simp only [hq] at k4; exact k4
      simp only [RunLoop.work, unread_of k1, RunSel.rank, ha.1]
      exact ⟨by omega, trivial, k5⟩
  case select order =>
    simp only [RunLoop.step] at hs
    split at hs <;> try contradiction
    rename_i hpc
    split at hs <;> cases hs
    rename_i ho
    simp only [RunLoop.work, RunSel.rank, hpc, bothRun_length ho, RunSel.Short]
    exact ⟨by omega, by omega, trivial⟩
  case park =>
    simp only [RunLoop.step] at hs
    split at hs <;> cases hs
    rename_i hpc
    simp only [RunLoop.work, RunSel.rank, hpc, List.length_nil]
    exact ⟨by omega, trivial, trivial⟩
  case repoll order =>
    simp only [RunLoop.step] at hs
    split at hs <;> try contradiction
    rename_i hpc
    split at hs <;> cases hs
    rename_i ho
    simp only [Bool.and_eq_true] at ho
    simp only [RunLoop.work, RunSel.rank, hpc, bothRun_length ho.2, ho.1, RunSel.Short]
    exact ⟨by simp, by omega, trivial⟩
  case spawn ok =>
    simp only [RunLoop.step] at hs
    split at hs <;> try contradiction
    rename_i todo hpc
    rw [hpc] at hsh
    obtain ⟨l, hl, hs⟩ := Option.map_eq_some_iff.1 hs
    subst hs
    cases ok with
    | true =>
      simp only [if_true, LocalRun.step] at hl
      split at hl <;> cases hl
      rename_i hq
      rw [after_select rfl]
      refine ⟨?_, hsh, rfl⟩
      simp only [RunLoop.work, RunSel.rank, hpc, LocalRun.toDo, hq, CmdPc.stage, unreadLines, unreadOut, unreadErr, Option.map_some,
        Option.getD_some, List.length_nil]
      omega
    | false =>
      simp only [Bool.false_eq_true, if_false, LocalRun.step] at hl
      split at hl <;> cases hl
      rename_i hq
      rw [after_outside (by simp)]
      refine ⟨?_, trivial, rfl⟩
      simp only [RunLoop.work, RunSel.rank, hpc, LocalRun.toDo, hq, CmdPc.stage, unreadLines, unreadOut, unreadErr]
      omega
  case inner order =>
    simp only [RunLoop.step] at hs
    split at hs <;> try contradiction
    rename_i todo hpc
    rw [hpc] at hsh
    split at hs <;> cases hs
    rename_i ho
    simp only [RunLoop.work, RunSel.rank, hpc, bothPipes_length ho.2, RunSel.Short]
    exact ⟨by omega, ⟨hsh, by omega⟩, trivial⟩
  case poll =>
    simp only [RunLoop.step] at hs
    split at hs
    · rename_i todo hpc
      rw [hpc] at hsh
      simp only [RunSel.Short, List.length_cons] at hsh
      cases hs
      by_cases hd : m.run.pc = .select .okDone
      · simp only [hd, if_true, RunLoop.work, RunSel.rank, hpc, List.length_cons, RunSel.Short]
        exact ⟨by omega, by omega, trivial⟩
      · simp only [if_neg hd, RunLoop.work, RunSel.rank, hpc, List.length_cons, RunSel.Short]
        exact ⟨by omega, by omega, trivial⟩
    · rename_i todo hpc
      rw [hpc] at hsh hp
      simp only [RunSel.Short, List.length_cons] at hsh
      obtain ⟨c, hc⟩ := hp
      simp only [RunLoop.pollSignal] at hs
      split at hs <;> cases hs
      · rename_i l hl
        obtain ⟨k1, k2⟩ := sigReady_some hl
        rw [after_outside k1]
        have k3 : l.toDo ≤ m.run.plugins + 4 ∧ l.plugins = m.run.plugins := by
          simp only [LocalRun.step, hc] at hl
          split at hl <;> try contradiction
          split at hl <;> cases hl <;> simp only [LocalRun.toDo] <;> exact ⟨by omega, trivial⟩
        have k4 : m.run.plugins + 5 ≤ m.run.toDo := by simp only [LocalRun.toDo, hc]; omega
        simp only [RunLoop.work, unread_of k2, RunSel.rank, hpc, List.length_cons]
        exact ⟨by omega, trivial, k3.2⟩
      · simp only [RunLoop.work, RunSel.rank, hpc, List.length_cons, RunSel.Short]
        refine ⟨?_, by omega, trivial⟩
        have e : ∀ sg, unreadLines { m.run with sig := sg } = unreadLines m.run := fun _ => rfl
        have e' : ∀ sg, LocalRun.toDo { m.run with sig := sg } = m.run.toDo := fun _ => rfl
        rw [e, e']
        omega
    · rename_i todo hpc
      rw [hpc] at hsh
      simp only [RunSel.Short] at hsh
      split at hs <;> try contradiction
      rename_i hwt
      simp only [RunLoop.pollWait] at hs
      split at hs
      · obtain ⟨l, hl, hs⟩ := Option.map_eq_some_iff.1 hs
        subst hs
        simp only [LocalRun.step, hwt, if_true] at hl
        cases hl
        rw [after_outside (by simp)]
        refine ⟨?_, trivial, rfl⟩
        simp only [RunLoop.work, RunSel.rank, hpc, LocalRun.toDo, hwt, CmdPc.stage, unreadLines, unreadOut, unreadErr]
        omega
      · split at hs <;> cases hs
        · rename_i l hl
          obtain ⟨-, k1, k2, k3⟩ := waitOk_some hl
          have k4 : l.plugins = m.run.plugins := by
            simp only [LocalRun.step, hwt, if_true] at hl
            split at hl <;> cases hl; rfl
          rw [after_select k1]
          refine ⟨?_, by simp only [RunSel.Short]; omega, k4⟩
          simp only [RunLoop.work, RunSel.rank, hpc, LocalRun.toDo, hwt, k1, CmdPc.stage, unread_of k3, k4]
          omega
        · simp only [RunLoop.work, RunSel.rank, hpc, RunSel.Short]
          exact ⟨by omega, by omega, trivial⟩
    · rename_i todo p inner hpc
      rw [hpc] at hsh hp
      simp only [RunSel.Short, List.length_cons] at hsh
      have fin : ∀ l : LocalRun, (∃ c, l.pc = .select c ∧ (20 * unreadLines l + 20 * c.stage + 20 ≤ 20 * unreadLines m.run + 40)) →
          l.plugins = m.run.plugins → (m.after (.command todo) l).work < m.work ∧ (m.after (.command todo) l).pc.Short ∧
            (m.after (.command todo) l).run.plugins = m.run.plugins := by
        rintro l ⟨c, hc, hle⟩ hpl
        have stg : CmdPc.reading.stage = 2 := rfl
        rw [after_select hc]
        refine ⟨?_, hsh.1, hpl⟩
        simp only [RunLoop.work, RunSel.rank, hpc, LocalRun.toDo, hp, hc, hpl, stg, List.length_cons]
        omega
      cases p with
      | out =>
        simp only [RunLoop.pollPipe] at hs
        split at hs
        · obtain ⟨l, hl, hs⟩ := Option.map_eq_some_iff.1 hs
          subst hs
          simp only [LocalRun.step, hp, if_true] at hl
          cases hl
          exact fin _ ⟨_, rfl, by simp only [CmdPc.stage, unreadLines, unreadOut, unreadErr]; omega⟩ rfl
        · split at hs <;> cases hs
          · rename_i l hl
            obtain ⟨-, k1, ch, k2, k3⟩ := readOut_some hl
            have k4 : l.plugins = m.run.plugins := by
              simp only [LocalRun.step, hp, if_true, k2] at hl
              split at hl
              · cases hl; rfl
              · split at hl <;> cases hl; rfl
            rcases k3 with ⟨e, x, rest, e1, e2⟩ | ⟨e, e1, e2, e3⟩
            · refine fin l ⟨_, e, ?_⟩ k4
              simp only [CmdPc.stage, unreadLines, unreadOut, unreadErr, k2, e2, Option.map_some, Option.getD_some, e1,
                List.length_cons]
              omega
            · exact fin l ⟨_, e, by simp only [CmdPc.stage, unread_of e3]; omega⟩ k4
          · simp only [RunLoop.work, RunSel.rank, hpc, List.length_cons, RunSel.Short]
            exact ⟨by omega, by omega, trivial⟩
      | err =>
        simp only [RunLoop.pollPipe] at hs
        split at hs
        · obtain ⟨l, hl, hs⟩ := Option.map_eq_some_iff.1 hs
          subst hs
          simp only [LocalRun.step, hp, if_true] at hl
          cases hl
          exact fin _ ⟨_, rfl, by simp only [CmdPc.stage, unreadLines, unreadOut, unreadErr]; omega⟩ rfl
        · split at hs <;> cases hs
          · rename_i l hl
            obtain ⟨-, k1, ch, k2, k3⟩ := readErr_some hl
            have k4 : l.plugins = m.run.plugins := by
              simp only [LocalRun.step, hp, if_true, k2] at hl
              split at hl
              · cases hl; rfl
              · split at hl <;> cases hl; rfl
            rcases k3 with ⟨e, x, rest, e1, e2⟩ | ⟨e, e1, e2, e3⟩
            · refine fin l ⟨_, e, ?_⟩ k4
              simp only [CmdPc.stage, unreadLines, unreadOut, unreadErr, k2, e2, Option.map_some, Option.getD_some, e1,
                List.length_cons]
              omega
            · exact fin l ⟨_, e, by simp only [CmdPc.stage, unread_of e3]; omega⟩ k4
          · simp only [RunLoop.work, RunSel.rank, hpc, List.length_cons, RunSel.Short]
            exact ⟨by omega, by omega, trivial⟩
    · rename_i todo hpc
      rw [hpc] at hsh
      cases hs
      simp only [RunSel.Short] at hsh
      simp only [RunLoop.work, RunSel.rank, hpc, List.length_nil, RunSel.Short]
      exact ⟨by omega, by omega, trivial⟩
    · contradiction

/-- Moves of others keep the lists of branches. -/
theorem runShort_step {m m' : RunLoop} {a : RunLoopAct} (hi : RunInv m) (hsh : m.pc.Short) (hs : m.step a = some m') : m'.pc.Short := by
  by_cases ha : taskMove a = true
  · exact (runWork_step hi hsh ha hs).2.1
  · cases a <;> simp only [taskMove, not_true_eq_false] at ha <;> simp only [RunLoop.step] at hs
    case env a =>
      split at hs <;> try contradiction
      obtain ⟨l, hl, hs⟩ := Option.map_eq_some_iff.1 hs
      subst hs
      rw [(runNotify_frame _).2.1]; exact hsh
    all_goals
      cases hs
      first
        | exact hsh
        | (rw [(runNotify_frame _).2.1]; exact hsh)

theorem runShort_reach {p : RunPlan} {n : Nat} {acts : List RunLoopAct} {m : RunLoop} (h : TaskReach p n acts m) : m.pc.Short :=
  (runs_induct (P := fun _ m => RunInv m ∧ m.pc.Short) ⟨runInv_reach (acts := []) rfl, trivial⟩
    (fun _ _ _ _ _ h hs => ⟨runInv_step h.1 hs, runShort_step h.1 h.2 hs⟩) h).2

/-- Moves of the task, one after the other. -/
theorem runWork_runs {m m' : RunLoop} {acts : List RunLoopAct} (hi : RunInv m) (hsh : m.pc.Short) (ha : acts.all taskMove = true)
    (hs : runs RunLoop.step m acts = some m') : acts.length + m'.work ≤ m.work := by
  induction acts generalizing m with
  | nil => cases hs; simp
  | cons a acts ih =>
    simp only [List.all_cons, Bool.and_eq_true] at ha
    simp only [runs] at hs
    cases h1 : m.step a with
    | none => simp [h1] at hs
    | some m1 =>
      simp only [h1] at hs
      have hw := runWork_step hi hsh ha.1 h1
      have h2 := ih (runInv_step hi h1) hw.2.1 ha.2 hs
      simp only [List.length_cons]; omega

theorem runWork_bound {m : RunLoop} (hi : RunInv m) (hsh : m.pc.Short) :
    m.work ≤ 20 * unreadLines m.run + m.run.plugins + 99 := by
  have h1 : m.run.toDo ≤ m.run.plugins + 87 ∧ (∀ c, m.run.pc = .select c → m.run.toDo ≤ m.run.plugins + 65) := by
    refine ⟨?_, fun c hc => ?_⟩
    · unfold LocalRun.toDo
      split <;> try omega
      rename_i c hc
      cases c <;> simp only [CmdPc.stage] <;> omega
    · simp only [LocalRun.toDo, hc]
      cases c <;> simp only [CmdPc.stage] <;> omega
  have hp := hi.place
  unfold RunPlace at hp
  unfold RunLoop.work
  cases hpc : m.pc <;> rw [hpc] at hp hsh <;> simp only [RunSel.rank, RunSel.Short] at hsh ⊢
  case outside => split <;> omega
  case top => have := hp; obtain ⟨c, hc⟩ := this; have := h1.2 c hc; split <;> omega
  case polling todo => have := hp; obtain ⟨c, hc⟩ := this; have := h1.2 c hc; split <;> omega
  case command todo => have := hp.1; obtain ⟨c, hc⟩ := this; have := h1.2 c hc; split <;> omega
  case pipes todo inner => have := h1.2 _ hp; split <;> omega
  case pending => split <;> omega

/-! ## The task and `LocalRun` -/

theorem sameTask_refl (l : LocalRun) : SameTaskState l l := ⟨rfl, rfl, rfl⟩

theorem sameTask_symm {a b : LocalRun} (h : SameTaskState a b) : SameTaskState b a := by
  obtain ⟨e, h1, h2⟩ := h
  refine ⟨?_, h1.symm, h2.symm⟩
  rw [e]

theorem sameTask_trans {a b c : LocalRun} (h : SameTaskState a b) (h' : SameTaskState b c) : SameTaskState a c := by
  obtain ⟨e, h1, h2⟩ := h
  obtain ⟨e', h3, h4⟩ := h'
  refine ⟨?_, h1.trans h3, h2.trans h4⟩
  rw [e', e]

/-- Who waits for the signal makes no difference to `LocalRun`. -/
theorem sameTask_step {l l' k' : LocalRun} {a : LocalAct} (h : SameTaskState l l') (hs : l'.step a = some k') :
    ∃ k, l.step a = some k ∧ SameTaskState k k' := by
  obtain ⟨e, hg⟩ := h
  generalize hg' : l'.sig = g at e hg
  subst e
  cases a with
  | setSignal v =>
    simp only [LocalRun.step] at hs ⊢
    cases hs
    exact ⟨_, rfl, rfl, sig_set_same hg v⟩
  | sigReady =>
    simp only [LocalRun.step] at hs
    split at hs <;> try contradiction
    rename_i c hc
    simp only [SigState.poll] at hs
    rcases Bool.eq_false_or_eq_true g.isNotified with hn | hn
    · simp [hn] at hs
    · cases hv : g.signal with
      | none => simp [hn, hv] at hs
      | some v =>
        have h1 : l.sig.signal = some v := by rw [hg.1]; exact hv
        have h2 : l.sig.isNotified = false := by rw [hg.2]; exact hn
        simp only [hn, hv, Bool.false_eq_true, if_false] at hs
        simp only [LocalRun.step, hc, SigState.poll, h1, h2, Bool.false_eq_true, if_false]
        cases hk : l.kind <;> simp only [hk] at hs ⊢ <;> cases hs <;> exact ⟨_, rfl, rfl, rfl, rfl⟩
  | begin_ =>
    have e1 : l.sig.isCancelled = g.isCancelled := by simp only [SigState.isCancelled, hg.1]
    have e2 : l.sig.isTimeout = g.isTimeout := by simp only [SigState.isTimeout, hg.1]
    simp only [LocalRun.step, e1, e2] at hs ⊢
    (repeat' split at hs) <;> first
      | contradiction
      | (cases hs; rename_i h1 h2; simp only [h1, h2, if_true, Bool.false_eq_true, if_false]; exact ⟨_, rfl, rfl, hg⟩)
  | hook =>
    simp only [LocalRun.step] at hs ⊢
    split at hs <;> try contradiction
    split at hs <;> cases hs
    · rename_i h1 h2
      simp only [h1, h2, if_true]
      exact ⟨_, rfl, rfl, hg⟩
    · rename_i h1 h2
      simp only [h1, h2, if_false]
      exact ⟨_, rfl, rfl, hg⟩
  | _ =>
    simp only [LocalRun.step] at hs ⊢
    (repeat' split at hs) <;> first
      | contradiction
      | (cases hs; simp_all; exact ⟨rfl, hg⟩)

theorem sameTask_stuck {l l' : LocalRun} (h : SameTaskState l l') (hk : TaskStuck l') : TaskStuck l := by
  intro a ha hf
  cases hs : l.step a with
  | none => rfl
  | some k =>
    obtain ⟨k', h1, -⟩ := sameTask_step (sameTask_symm h) hs
    rw [hk a ha hf] at h1
    cases h1

/-- The move of `LocalRun` behind a move of the task, if there is one. -/
theorem runner_step_local {m m' : RunLoop} {a : RunLoopAct} (hi : RunInv m) (hs : m.step a = some m') :
    (SameTaskState m.run m'.run ∧ surroundingsOf a = none) ∨
      ∃ b, m.run.step b = some m'.run ∧ [b].filter (fun b => !b.own) = [a].filterMap surroundingsOf := by
  cases a with
  | own b =>
    simp only [RunLoop.step] at hs
    split at hs <;> try contradiction
    rename_i ha
    obtain ⟨l, hl, hs⟩ := Option.map_eq_some_iff.1 hs
    subst hs
    refine .inr ⟨b, hl, ?_⟩
    have : b.own = true := by
      have := ha.2
      cases b <;> simp_all [LocalAct.sequential, LocalAct.own]
    simp [this, surroundingsOf]
  | select order =>
    simp only [RunLoop.step] at hs
    (repeat' split at hs) <;> cases hs; exact .inl ⟨sameTask_refl _, rfl⟩
  | park =>
    simp only [RunLoop.step] at hs
    (repeat' split at hs) <;> cases hs; exact .inl ⟨sameTask_refl _, rfl⟩
  | repoll order =>
    simp only [RunLoop.step] at hs
    (repeat' split at hs) <;> cases hs; exact .inl ⟨sameTask_refl _, rfl⟩
  | inner order =>
    simp only [RunLoop.step] at hs
    (repeat' split at hs) <;> cases hs; exact .inl ⟨sameTask_refl _, rfl⟩
  | spawn ok =>
    simp only [RunLoop.step] at hs
    split at hs <;> try contradiction
    obtain ⟨l, hl, hs⟩ := Option.map_eq_some_iff.1 hs
    subst hs
    exact .inr ⟨_, hl, by cases ok <;> rfl⟩
  | env b =>
    simp only [RunLoop.step] at hs
    split at hs <;> try contradiction
    rename_i hb
    obtain ⟨l, hl, hs⟩ := Option.map_eq_some_iff.1 hs
    subst hs
    refine .inr ⟨b, ?_, by simp [hb, surroundingsOf]⟩
    rw [(runNotify_frame _).1]; exact hl
  | breakOut e => cases hs; exact .inl ⟨by rw [(runNotify_frame _).1]; exact sameTask_refl _, rfl⟩
  | breakErr e => cases hs; exact .inl ⟨by rw [(runNotify_frame _).1]; exact sameTask_refl _, rfl⟩
  | breakWait => cases hs; exact .inl ⟨by rw [(runNotify_frame _).1]; exact sameTask_refl _, rfl⟩
  | wake => cases hs; exact .inl ⟨sameTask_refl _, rfl⟩
  | poll =>
    simp only [RunLoop.step] at hs
    split at hs
    · cases hs; exact .inl ⟨sameTask_refl _, rfl⟩
    · rename_i todo hpc
      simp only [RunLoop.pollSignal] at hs
      split at hs <;> cases hs
      · rename_i l hl
        exact .inr ⟨_, hl, rfl⟩
      · rename_i hl
        have hp := hi.place
        unfold RunPlace at hp
        rw [hpc] at hp
        obtain ⟨c, hc⟩ := hp
        have hn := hi.fresh (early_select hc)
        have hv := (sigReady_none hc hn).1 hl
        have e : (m.run.sig.poll 0).1 = { m.run.sig with waker := some 0 } := by simp [SigState.poll, hn, hv]
        exact .inl ⟨⟨rfl, by rw [e], by rw [e]⟩, rfl⟩
    · split at hs <;> try contradiction
      simp only [RunLoop.pollWait] at hs
      split at hs
      · obtain ⟨l, hl, hs⟩ := Option.map_eq_some_iff.1 hs
        subst hs
        exact .inr ⟨_, hl, rfl⟩
      · split at hs <;> cases hs
        · rename_i l hl
          exact .inr ⟨_, hl, rfl⟩
        · exact .inl ⟨sameTask_refl _, rfl⟩
    · rename_i todo p inner hpc
      cases p <;> simp only [RunLoop.pollPipe] at hs <;> split at hs
      · obtain ⟨l, hl, hs⟩ := Option.map_eq_some_iff.1 hs
        subst hs
        exact .inr ⟨_, hl, rfl⟩
      · split at hs <;> cases hs
        · rename_i l hl
          exact .inr ⟨_, hl, rfl⟩
        · exact .inl ⟨sameTask_refl _, rfl⟩
      · obtain ⟨l, hl, hs⟩ := Option.map_eq_some_iff.1 hs
        subst hs
        exact .inr ⟨_, hl, rfl⟩
      · split at hs <;> cases hs
        · rename_i l hl
          exact .inr ⟨_, hl, rfl⟩
        · exact .inl ⟨sameTask_refl _, rfl⟩
    · cases hs; exact .inl ⟨sameTask_refl _, rfl⟩
    · contradiction

theorem runner_runs_local {p : RunPlan} {n : Nat} {acts : List RunLoopAct} {m : RunLoop} (h : TaskReach p n acts m) :
    ∃ lacts l, LocalReach p n lacts l ∧ SameTaskState l m.run ∧
      lacts.filter (fun b => !b.own) = acts.filterMap surroundingsOf := by
  refine (runs_induct (P := fun acts m => RunInv m ∧ ∃ lacts l, LocalReach p n lacts l ∧ SameTaskState l m.run ∧
    lacts.filter (fun b => !b.own) = acts.filterMap surroundingsOf)
    ⟨runInv_reach (acts := []) rfl, [], _, rfl, sameTask_refl _, rfl⟩ ?_ h).2
  rintro acts a m m' - ⟨hi, lacts, l, h1, h2, h3⟩ hs
  refine ⟨runInv_step hi hs, ?_⟩
  rcases runner_step_local hi hs with ⟨k1, k2⟩ | ⟨b, k1, k3⟩
  · refine ⟨lacts, l, h1, sameTask_trans h2 k1, ?_⟩
    rw [List.filterMap_append, ← h3]; simp [k2]
  · obtain ⟨s, hs1, hs2⟩ := sameTask_step h2 k1
    refine ⟨lacts ++ [b], s, runs_snoc.2 ⟨l, h1, hs1⟩, hs2, ?_⟩
    rw [List.filterMap_append, List.filter_append, h3, k3]

end AstroRun
