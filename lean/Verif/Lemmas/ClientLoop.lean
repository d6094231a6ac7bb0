import Verif.Lemmas.Run
import Verif.Lemmas.SelectLoop
import Verif.Spec.ClientLoop

/-! # Lemmas about the loop of the remote client -/

namespace AstroRun
open Spec

theorem readable_iff (m : CliLoop) : m.readable = true ↔ ReplyReady m := by
  simp only [CliLoop.readable, ReplyReady, ReplyEnded, Bool.or_eq_true, Bool.and_eq_true, decide_eq_true_eq,
    Bool.not_eq_true', List.isEmpty_eq_false_iff, Option.isSome_iff_ne_none, List.isEmpty_iff]
  grind

/-- Branch `b` was found pending and has left a waker behind. -/
def CliHeld (m : CliLoop) : CliBranch → Prop
  | .reply => m.waits = true
  | .signal => m.run.sig.isNotified = true ∨ (m.run.sig.signal = none ∧ m.run.sig.waker = some 0)

/-- The wakers of the client's task are where they should be. -/
structure CliInv (m : CliLoop) : Prop where
  polling : ∀ todo, m.pc = .polling todo → m.woken = false → ∀ b, b ∉ todo → CliHeld m b
  pending : m.pc = .pending → m.woken = false → ∀ b, CliHeld m b
  quiet : m.waits = true → m.readable = false
  inside : m.pc ≠ .outside → m.run.cli = .streaming
  outer : m.pc = .outside → m.run.cli ≠ .streaming ∧ m.run.cli ≠ .calling
  told : m.run.sig.isNotified = true → ∃ v, m.run.sig.signal = some v ∧
    (v ∈ m.run.sigSent ∨ m.run.cli = .signalling v ∨ m.run.cli = .checking ∨ m.run.cli = .finished)
  ended : m.run.cli = .finished → m.run.outer.result ≠ none

theorem endSeq_result (s : StreamState) (r : RunResult) : (s.endSeq r).1.result ≠ none := by
  simp only [StreamState.endSeq, StreamState.isEnded, StreamState.endWrite]
  rcases Bool.eq_false_or_eq_true s.result.isSome with h | h
  · simp only [h, if_true]; exact Option.isSome_iff_ne_none.1 h
  · simp [h]

theorem stream_poll_result (s : StreamState) (t : Nat) : (s.poll t).1.result = s.result := by
  simp only [StreamState.poll]
  split
  · rfl
  · split <;> rfl

/-- What moves that are not the client's leave alone. -/
theorem outside_frame {r r' : RemoteRun} {a : RemoteAct} (ha : a.outside = true) (hs : r.step a = some r') :
    r'.cli = r.cli ∧ r'.sigSent = r.sigSent ∧ (r'.outer.result = r.outer.result) ∧ r'.sig.isNotified = r.sig.isNotified ∧
      ((∃ v, a = .setSignal v ∧ r'.sig = (r.sig.set v).state) ∨ ((∀ v, a ≠ .setSignal v) ∧ r'.sig = r.sig)) := by
  cases a <;> simp only [RemoteAct.outside, Bool.false_eq_true] at ha <;> simp only [RemoteRun.step] at hs
  case setSignal v =>
    cases hs
    exact ⟨rfl, rfl, rfl, set_notified_eq _ _, .inl ⟨v, rfl, rfl⟩⟩
  case engPoll =>
    split at hs
    · cases hs
    · split at hs
      · cases hs; rename_i e; have := stream_poll_result r.outer 1; rw [e] at this; exact ⟨rfl, rfl, this, rfl, .inr ⟨by simp, rfl⟩⟩
      · cases hs; rename_i e; have := stream_poll_result r.outer 1; rw [e] at this; exact ⟨rfl, rfl, this, rfl, .inr ⟨by simp, rfl⟩⟩
      · cases hs
  all_goals
    (repeat' split at hs) <;> first
      | contradiction
      | (cases hs; exact ⟨rfl, rfl, rfl, rfl, .inr ⟨by simp, rfl⟩⟩)

theorem notify_frame (m : CliLoop) :
    m.notify.run = m.run ∧ m.notify.pc = m.pc ∧ m.notify.broken = m.broken ∧ (m.notify.woken = false → m.notify.waits = m.waits ∧ m.woken = false) ∧
      (m.notify.waits = true → m.notify.readable = false) := by
  unfold CliLoop.notify
  split
  · exact ⟨rfl, rfl, rfl, by simp, by simp⟩
  · rename_i h
    refine ⟨rfl, rfl, rfl, fun h => ⟨rfl, h⟩, fun hw => ?_⟩
    simp only [hw, Bool.true_and] at h
    simpa using h

theorem mem_both {order : List CliBranch} (h : bothBranches order = true) (b : CliBranch) : b ∈ order := by
  simp only [bothBranches, Bool.or_eq_true, decide_eq_true_eq] at h
  rcases h with rfl | rfl <;> cases b <;> simp

theorem both_length {order : List CliBranch} (h : bothBranches order = true) : order.length = 2 := by
  simp only [bothBranches, Bool.or_eq_true, decide_eq_true_eq] at h
  rcases h with rfl | rfl <;> rfl

theorem set_held {s : SigState} {v : Signal} (h : s.isNotified = true ∨ (s.signal = none ∧ s.waker = some 0)) :
    (s.set v).woken = some 0 ∨ (s.set v).state.isNotified = true := by
  rcases h with h | ⟨h1, h2⟩
  · right; rw [set_notified_eq]; exact h
  · left; simp [SigState.set, h1, h2]

/-- The client reads something. -/
theorem cliNext_some {r r' : RemoteRun} (h : r.step .cliNext = some r') :
    r.cli = .streaming ∧ r'.sig = r.sig ∧ r'.sigSent = r.sigSent ∧
      ((r'.cli = .streaming ∧ ∃ x rest, r.chan = x :: rest ∧ r'.chan = rest) ∨
        (r'.cli = .checking ∧ r'.chan = r.chan ∧ r.chan = [] ∧ ReplyEnded r)) := by
  simp only [RemoteRun.step] at h
  split at h <;> try contradiction
  rename_i hc
  split at h
  · rename_i x rest he
    cases h
    exact ⟨hc, rfl, rfl, .inl ⟨hc, x, rest, he, rfl⟩⟩
  · rename_i he
    split at h <;> cases h
    rename_i hd
    exact ⟨hc, rfl, rfl, .inr ⟨rfl, rfl, he, hd⟩⟩

/-- The client has nothing to read. -/
theorem cliNext_none {r : RemoteRun} (hc : r.cli = .streaming) :
    r.step .cliNext = none ↔ r.chan = [] ∧ ¬ ReplyEnded r := by
  simp only [RemoteRun.step, hc, if_true, ReplyEnded]
  cases he : r.chan with
  | cons x rest => simp
  | nil => simp

theorem cliSignal_some {r r' : RemoteRun} (h : r.step .cliSignal = some r') :
    ∃ v, r.cli = .streaming ∧ r.sig.isNotified = false ∧ r.sig.signal = some v ∧
      r' = { r with sig := ⟨true, some v, r.sig.waker⟩, cli := .signalling v } := by
  simp only [RemoteRun.step] at h
  split at h <;> try contradiction
  rename_i hc
  simp only [SigState.poll] at h
  rcases Bool.eq_false_or_eq_true r.sig.isNotified with hn | hn
  · simp [hn] at h
  · cases hv : r.sig.signal with
    | none => simp [hn, hv] at h
    | some v => simp [hn, hv] at h; exact ⟨v, hc, hn, rfl, h.symm⟩

theorem cliSignal_none {r : RemoteRun} (hc : r.cli = .streaming) (h : r.step .cliSignal = none) :
    (r.sig.isNotified = true ∧ (r.sig.poll 0).1 = r.sig) ∨
      (r.sig.isNotified = false ∧ r.sig.signal = none ∧ (r.sig.poll 0).1 = { r.sig with waker := some 0 }) := by
  simp only [RemoteRun.step, hc, if_true] at h
  simp only [SigState.poll] at h ⊢
  rcases Bool.eq_false_or_eq_true r.sig.isNotified with hn | hn
  · simp [hn]
  · cases hv : r.sig.signal with
    | none => simp [hn]
    | some v => simp [hn, hv] at h

theorem cliInv_step {m m' : CliLoop} {a : CliAct} (h : CliInv m) (hs : m.step a = some m') : CliInv m' := by
  obtain ⟨h1, h2, h3, h4, h5, h6, h7⟩ := h
  cases a with
  | select order =>
    simp only [CliLoop.step] at hs
    split at hs <;> try contradiction
    rename_i hp
    split at hs <;> cases hs
    rename_i ho
    exact ⟨fun todo ht _ b hb => by cases ht; exact absurd (mem_both ho b) hb, by simp, h3, fun _ => h4 (by simp [hp]),
      by simp, h6, h7⟩
  | park =>
    simp only [CliLoop.step] at hs
    split at hs <;> cases hs
    rename_i hp
    exact ⟨by simp, fun _ hw b => by have := h1 _ hp hw b (by simp); cases b <;> exact this, h3,
      fun _ => h4 (by simp [hp]), by simp, h6, h7⟩
  | repoll order =>
    simp only [CliLoop.step] at hs
    split at hs <;> try contradiction
    rename_i hp
    split at hs <;> cases hs
    rename_i ho
    simp only [Bool.and_eq_true] at ho
    exact ⟨fun todo ht _ b hb => by cases ht; exact absurd (mem_both ho.2 b) hb, by simp, h3,
      fun _ => h4 (by simp [hp]), by simp, h6, h7⟩
  | wake =>
    cases hs
    exact ⟨by simp, by simp, h3, h4, h5, h6, h7⟩
  | break_ e =>
    simp only [CliLoop.step] at hs
    cases hs
    obtain ⟨f1, f2, f3, f4, f5⟩ := notify_frame { m with broken := some e }
    refine ⟨fun todo ht hw b hb => ?_, fun ht hw b => ?_, f5, fun ht => ?_, fun ht => ?_, ?_, ?_⟩
    · rw [f2] at ht
      have := h1 _ ht (f4 hw).2 b hb
      cases b
      · simp only [CliHeld]; rw [(f4 hw).1]; exact this
      · simp only [CliHeld]; rw [f1]; exact this
    · rw [f2] at ht
      have := h2 ht (f4 hw).2 b
      cases b
      · simp only [CliHeld]; rw [(f4 hw).1]; exact this
      · simp only [CliHeld]; rw [f1]; exact this
    · rw [f2] at ht; rw [f1]; exact h4 ht
    · rw [f2] at ht; rw [f1]; exact h5 ht
    · rw [f1]; exact h6
    · rw [f1]; exact h7
  | env a =>
    simp only [CliLoop.step] at hs
    split at hs <;> try contradiction
    rename_i ha
    obtain ⟨r, hr, hs⟩ := Option.map_eq_some_iff.1 hs
    obtain ⟨g1, g2, g3, g4, g5⟩ := outside_frame ha hr
    obtain ⟨m1, hm1⟩ : ∃ m1 : CliLoop, m1 = { m with run := r, woken := m.woken || a.wakesClient m.run.sig } := ⟨_, rfl⟩
    replace hs : m1.notify = m' := by rw [hm1]; exact hs
    obtain ⟨f1, f2, f3, f4, f5⟩ := notify_frame m1
    rw [hs] at f1 f2 f3 f4 f5
    have e1 : m1.run = r := by rw [hm1]
    have e2 : m1.pc = m.pc := by rw [hm1]
    have e3 : m1.waits = m.waits := by rw [hm1]
    have e4 : m1.woken = false → m.woken = false := by
      rw [hm1]; intro h; exact (Bool.or_eq_false_iff.1 h).1
    have e5 : ∀ v, a = .setSignal v → m1.woken = false → (m.run.sig.set v).woken ≠ some 0 := by
      rintro v rfl; rw [hm1]; simp [RemoteAct.wakesClient]
    have held : m1.woken = false → ∀ b, CliHeld m b → (m'.woken = false) → CliHeld m' b := by
      intro hw b hb hw'
      cases b with
      | reply => simp only [CliHeld]; rw [(f4 hw').1, e3]; exact hb
      | signal =>
        simp only [CliHeld]
        rw [f1, e1]
        rcases g5 with ⟨v, rfl, e⟩ | ⟨-, e⟩
        · rw [e]
          rcases set_held (v := v) hb with h | h
          · exact absurd h (e5 v rfl hw)
          · exact .inl h
        · rw [e]; exact hb
    refine ⟨fun todo ht hw b hb => ?_, fun ht hw b => ?_, f5, fun ht => ?_, fun ht => ?_, fun hn => ?_, fun hf => ?_⟩
    · rw [f2, e2] at ht
      have hw1 := (f4 hw).2
      exact held hw1 b (h1 _ ht (e4 hw1) b hb) hw
    · rw [f2, e2] at ht
      have hw1 := (f4 hw).2
      exact held hw1 b (h2 ht (e4 hw1) b) hw
    · rw [f2, e2] at ht; rw [f1, e1, g1]; exact h4 ht
    · rw [f2, e2] at ht; rw [f1, e1, g1]; exact h5 ht
    · rw [f1, e1, g4] at hn
      obtain ⟨v, hv, hv'⟩ := h6 hn
      rw [f1, e1, g1, g2]
      refine ⟨v, ?_, hv'⟩
      rcases g5 with ⟨u, rfl, e⟩ | ⟨-, e⟩
      · rw [e]; simp [SigState.set, hv]
      · rw [e]; exact hv
    · rw [f1, e1, g1] at hf
      rw [f1, e1, g3]
      exact h7 hf
  | sent ok =>
    simp only [CliLoop.step] at hs
    split at hs <;> try contradiction
    rename_i hp
    obtain ⟨r, hr, hs⟩ := Option.map_eq_some_iff.1 hs
    subst hs
    cases ok with
    | true =>
      simp only [if_true, RemoteRun.step] at hr
      split at hr <;> cases hr
      rename_i v hc
      refine ⟨by simp [CliLoop.after], by simp [CliLoop.after], h3, by simp [CliLoop.after], by simp [CliLoop.after],
        fun hn => ?_, by simp [CliLoop.after]⟩
      obtain ⟨u, hu, hu'⟩ := h6 hn
      refine ⟨u, hu, .inl ?_⟩
      simp only [hc] at hu'
      simp only [CliLoop.after]
      rcases hu' with h | h | h | h
      · simp [h]
      · cases h; simp
      · cases h
      · cases h
    | false =>
      simp only [Bool.false_eq_true, if_false, RemoteRun.step] at hr
      split at hr <;> cases hr
      rename_i v hc
      refine ⟨by simp [CliLoop.after], by simp [CliLoop.after], h3, by simp [CliLoop.after], by simp [CliLoop.after],
        fun hn => ?_, by simp [CliLoop.after]⟩
      obtain ⟨u, hu, hu'⟩ := h6 hn
      exact ⟨u, hu, .inr (.inr (.inl rfl))⟩
  | check =>
    simp only [CliLoop.step] at hs
    split at hs <;> try contradiction
    rename_i hp
    obtain ⟨r, hr, hs⟩ := Option.map_eq_some_iff.1 hs
    subst hs
    simp only [RemoteRun.step] at hr
    split at hr <;> try contradiction
    have key : r.cli = .finished ∧ r.sig = m.run.sig ∧ r.sigSent = m.run.sigSent ∧ r.chan = m.run.chan ∧ r.srv = m.run.srv ∧
        r.queue = m.run.queue ∧ r.dropped = m.run.dropped ∧ r.outer.result ≠ none := by
      split at hr <;> cases hr
      · rename_i he
        exact ⟨rfl, rfl, rfl, rfl, rfl, rfl, rfl, Option.isSome_iff_ne_none.1 he⟩
      · exact ⟨rfl, rfl, rfl, rfl, rfl, rfl, rfl, endSeq_result _ _⟩
    obtain ⟨k1, k2, k3, k4, k5, k6, k7, k8⟩ := key
    refine ⟨by simp [CliLoop.after, k1], by simp [CliLoop.after, k1], fun hw => ?_, by simp [CliLoop.after, k1],
      by simp [CliLoop.after, k1], fun hn => ?_, fun _ => k8⟩
    · have := h3 hw
      simpa [CliLoop.readable, CliLoop.after, k4, k5, k6, k7] using this
    · simp only [CliLoop.after, k2] at hn ⊢
      obtain ⟨v, hv, -⟩ := h6 hn
      exact ⟨v, hv, .inr (.inr (.inr k1))⟩
  | poll =>
    simp only [CliLoop.step] at hs
    split at hs <;> try contradiction
    rename_i b todo hp
    have hc := h4 (by simp [hp])
    cases b with
    | reply =>
      simp only [CliLoop.pollBranch] at hs
      split at hs
      · rename_i e he
        obtain ⟨r, hr, hs⟩ := Option.map_eq_some_iff.1 hs
        subst hs
        simp only [RemoteRun.step, hc, if_true] at hr
        cases hr
        refine ⟨by simp [CliLoop.after], by simp [CliLoop.after], h3, by simp [CliLoop.after], by simp [CliLoop.after],
          fun hn => ?_, by simp [CliLoop.after]⟩
        obtain ⟨v, hv, -⟩ := h6 hn
        exact ⟨v, hv, .inr (.inr (.inl rfl))⟩
      · rename_i he
        split at hs
        · rename_i r hr
          cases hs
          obtain ⟨-, k1, k2, k3⟩ := cliNext_some hr
          have hw : m.waits = false := by
            rcases Bool.eq_false_or_eq_true m.waits with hw | hw
            · have := h3 hw
              have hr : m.readable = true := (readable_iff m).2 (by
                rcases k3 with ⟨-, x, rest, e, -⟩ | ⟨-, -, -, e⟩
                · exact .inl (by simp [e])
                · exact .inr (.inl e))
              rw [this] at hr; cases hr
            · exact hw
          refine ⟨?_, ?_, fun h => by simp [CliLoop.after, hw] at h, ?_, ?_, fun hn => ?_, fun hf => ?_⟩
          · intro todo ht; simp only [CliLoop.after] at ht; split at ht <;> cases ht
          · intro ht; simp only [CliLoop.after] at ht; split at ht <;> cases ht
          · intro ht; simp only [CliLoop.after] at ht ⊢
            split at ht
            · assumption
            · exact absurd rfl ht
          · intro ht; simp only [CliLoop.after] at ht ⊢
            split at ht
            · cases ht
            · rename_i hn
              refine ⟨hn, ?_⟩
              rcases k3 with ⟨e, -⟩ | ⟨e, -⟩ <;> rw [e] <;> simp
          · simp only [CliLoop.after, k1, k2] at hn ⊢
            obtain ⟨v, hv, hv'⟩ := h6 hn
            refine ⟨v, hv, ?_⟩
            rw [hc] at hv'
            rcases hv' with h | h | h | h
            · exact .inl h
            · cases h
            · cases h
            · cases h
          · simp only [CliLoop.after] at hf
            rcases k3 with ⟨e, -⟩ | ⟨e, -⟩ <;> rw [e] at hf <;> cases hf
        · rename_i hr
          cases hs
          have hq := (cliNext_none hc).1 hr
          refine ⟨fun todo' ht hw b hb => ?_, by simp, fun _ => ?_, fun _ => hc, by simp, h6, h7⟩
          · cases ht
            cases b with
            | reply => rfl
            | signal => exact h1 _ hp hw .signal (by simpa using hb)
          · rw [← Bool.not_eq_true, readable_iff]
            rintro (h | h | h)
            · exact h hq.1
            · exact hq.2 h
            · exact h he
    | signal =>
      simp only [CliLoop.pollBranch] at hs
      split at hs
      · rename_i r hr
        cases hs
        obtain ⟨v, -, k1, k2, rfl⟩ := cliSignal_some hr
        exact ⟨by simp [CliLoop.after], by simp [CliLoop.after], h3, by simp [CliLoop.after], by simp [CliLoop.after],
          fun _ => ⟨v, rfl, .inr (.inl rfl)⟩, by simp [CliLoop.after]⟩
      · rename_i hr
        cases hs
        have hq := cliSignal_none hc hr
        refine ⟨fun todo' ht hw b hb => ?_, by simp, h3, fun _ => hc, by simp, fun hn => ?_, h7⟩
        · cases ht
          cases b with
          | reply => exact h1 _ hp hw .reply (by simpa using hb)
          | signal =>
            simp only [CliHeld]
            rcases hq with ⟨e1, e2⟩ | ⟨e0, e1, e2⟩
            · rw [e2]; exact .inl e1
            · rw [e2]; exact .inr ⟨e1, rfl⟩
        · rcases hq with ⟨e1, e2⟩ | ⟨e0, e1, e2⟩
          · simp only [e2] at hn ⊢; exact h6 hn
          · simp [e2, e0] at hn

theorem cliInv_reach {m0 m : CliLoop} {acts : List CliAct} (h : CliReach m0 acts m) : CliInv m := by
  obtain ⟨hs, h⟩ := h
  refine runs_induct (P := fun _ m => CliInv m) ?_ ?_ h
  · exact ⟨by simp [hs.pc], by simp [hs.pc], by simp [hs.waits], fun _ => hs.streaming, by simp [hs.pc],
      by simp [hs.fresh], by simp [hs.streaming]⟩
  · intro acts a m m' _ h hs; exact cliInv_step h hs

/-! ## No spinning -/

/-- Where the client's task is, as a number that falls. -/
def CliLoop.rank (m : CliLoop) : Nat :=
  match m.pc with
  | .top => 4
  | .polling todo => todo.length + 1
  | .pending => 0
  | .outside => match m.run.cli with
    | .signalling _ => 5
    | .checking => 1
    | _ => 0

/-- How much the client's task has to do. -/
def CliLoop.work (m : CliLoop) : Nat :=
  8 * (m.run.chan.length + (if m.run.sig.isNotified then 0 else if m.run.sig.signal.isSome then 1 else 0)) +
    (if m.woken then 4 else 0) + m.rank

theorem loopWork_step {m m' : CliLoop} {a : CliAct} (hi : CliInv m) (ha : clientMove a = true) (hs : m.step a = some m') :
    m'.work < m.work := by
  cases a <;> simp only [clientMove, Bool.false_eq_true] at ha
  case select order =>
    simp only [CliLoop.step] at hs
    split at hs <;> try contradiction
    rename_i hp
    split at hs <;> cases hs
    rename_i ho
    simp only [CliLoop.work, CliLoop.rank, hp, both_length ho]
    omega
  case park =>
    simp only [CliLoop.step] at hs
    split at hs <;> cases hs
    rename_i hp
    simp only [CliLoop.work, CliLoop.rank, hp, List.length_nil]
    omega
  case repoll order =>
    simp only [CliLoop.step] at hs
    split at hs <;> try contradiction
    rename_i hp
    split at hs <;> cases hs
    rename_i ho
    simp only [Bool.and_eq_true] at ho
    simp only [CliLoop.work, CliLoop.rank, hp, both_length ho.2, ho.1, if_true]
    simp
  case sent ok =>
    simp only [CliLoop.step] at hs
    split at hs <;> try contradiction
    rename_i hp
    obtain ⟨r, hr, hs⟩ := Option.map_eq_some_iff.1 hs
    subst hs
    cases ok with
    | true =>
      simp only [if_true, RemoteRun.step] at hr
      split at hr <;> cases hr
      rename_i v hc
      simp only [CliLoop.work, CliLoop.rank, hp, hc, CliLoop.after, if_true]
      omega
    | false =>
      simp only [Bool.false_eq_true, if_false, RemoteRun.step] at hr
      split at hr <;> cases hr
      rename_i v hc
      simp [CliLoop.work, CliLoop.rank, hp, hc, CliLoop.after]
  case check =>
    simp only [CliLoop.step] at hs
    split at hs <;> try contradiction
    rename_i hp
    obtain ⟨r, hr, hs⟩ := Option.map_eq_some_iff.1 hs
    subst hs
    simp only [RemoteRun.step] at hr
    split at hr <;> try contradiction
    rename_i hc
    split at hr <;> cases hr <;> simp [CliLoop.work, CliLoop.rank, hp, hc, CliLoop.after]
  case poll =>
    simp only [CliLoop.step] at hs
    split at hs <;> try contradiction
    rename_i b todo hp
    have hc := hi.inside (by simp [hp])
    cases b with
    | reply =>
      simp only [CliLoop.pollBranch] at hs
      split at hs
      · obtain ⟨r, hr, hs⟩ := Option.map_eq_some_iff.1 hs
        subst hs
        simp only [RemoteRun.step, hc, if_true] at hr
        cases hr
        simp [CliLoop.work, CliLoop.rank, hp, CliLoop.after]
      · split at hs
        · rename_i r hr
          cases hs
          obtain ⟨-, k1, k2, k3⟩ := cliNext_some hr
          rcases k3 with ⟨e, x, rest, e1, e2⟩ | ⟨e, e1, e2, -⟩
          · simp only [CliLoop.work, CliLoop.rank, hp, CliLoop.after, e, k1, e1, e2, if_true, List.length_cons]
            omega
          · simp [CliLoop.work, CliLoop.rank, hp, CliLoop.after, e, k1, e1]
        · cases hs
          simp [CliLoop.work, CliLoop.rank, hp]
    | signal =>
      simp only [CliLoop.pollBranch] at hs
      split at hs
      · rename_i r hr
        cases hs
        obtain ⟨v, -, k1, k2, rfl⟩ := cliSignal_some hr
        rcases Bool.eq_false_or_eq_true m.woken with hw | hw <;>
          simp [CliLoop.work, CliLoop.rank, hp, CliLoop.after, k1, k2, hw] <;> omega
      · rename_i hr
        cases hs
        rcases cliSignal_none hc hr with ⟨e1, e2⟩ | ⟨e0, e1, e2⟩
        · simp [CliLoop.work, CliLoop.rank, hp, e2]
        · simp [CliLoop.work, CliLoop.rank, hp, e2]

/-- `select!` has at most two branches to poll. -/
def CliLoop.Short (m : CliLoop) : Prop := ∀ todo, m.pc = .polling todo → todo.length ≤ 2

theorem short_step {m m' : CliLoop} {a : CliAct} (h : m.Short) (hs : m.step a = some m') : m'.Short := by
  have after : ∀ r, (m.after r).Short := by
    intro r todo ht
    simp only [CliLoop.after] at ht
    split at ht <;> cases ht
  cases a with
  | select order =>
    simp only [CliLoop.step] at hs
    split at hs <;> try contradiction
    split at hs <;> cases hs
    rename_i ho
    intro todo ht; cases ht; exact Nat.le_of_eq (both_length ho)
  | park =>
    simp only [CliLoop.step] at hs
    split at hs <;> cases hs
    intro todo ht; cases ht
  | repoll order =>
    simp only [CliLoop.step] at hs
    split at hs <;> try contradiction
    split at hs <;> cases hs
    rename_i ho
    simp only [Bool.and_eq_true] at ho
    intro todo ht; cases ht; exact Nat.le_of_eq (both_length ho.2)
  | wake => cases hs; exact h
  | break_ e =>
    cases hs
    intro todo ht; rw [(notify_frame _).2.1] at ht; exact h todo ht
  | env a =>
    simp only [CliLoop.step] at hs
    split at hs <;> try contradiction
    obtain ⟨r, hr, hs⟩ := Option.map_eq_some_iff.1 hs
    subst hs
    intro todo ht; simp only [CliLoop.surround] at ht; rw [(notify_frame _).2.1] at ht; exact h todo ht
  | sent ok =>
    simp only [CliLoop.step] at hs
    split at hs <;> try contradiction
    obtain ⟨r, hr, hs⟩ := Option.map_eq_some_iff.1 hs
    subst hs; exact after r
  | check =>
    simp only [CliLoop.step] at hs
    split at hs <;> try contradiction
    obtain ⟨r, hr, hs⟩ := Option.map_eq_some_iff.1 hs
    subst hs; exact after r
  | poll =>
    simp only [CliLoop.step] at hs
    split at hs <;> try contradiction
    rename_i b todo hp
    have hl := h _ hp
    simp only [List.length_cons] at hl
    have short : ∀ x : CliLoop, x.pc = .polling todo → x.Short := by
      intro x hx t ht; rw [hx] at ht; cases ht; omega
    cases b <;> simp only [CliLoop.pollBranch] at hs
    · split at hs
      · obtain ⟨r, hr, hs⟩ := Option.map_eq_some_iff.1 hs
        subst hs; exact after r
      · split at hs <;> cases hs
        · exact after _
        · exact short _ rfl
    · split at hs <;> cases hs
      · exact after _
      · exact short _ rfl

theorem short_reach {m0 m : CliLoop} {acts : List CliAct} (h : CliReach m0 acts m) : m.Short := by
  refine runs_induct (P := fun _ m => CliLoop.Short m) ?_ (fun _ _ _ _ _ h hs => short_step h hs) h.2
  intro todo ht; rw [h.1.pc] at ht; cases ht

theorem loopWork_bound {m : CliLoop} (hi : m.Short) : m.work ≤ 8 * m.run.chan.length + 17 := by
  cases hp : m.pc with
  | polling todo =>
    have := hi _ hp
    simp only [CliLoop.work, CliLoop.rank, hp]
    repeat' split
    all_goals omega
  | _ =>
    simp only [CliLoop.work, CliLoop.rank, hp]
    repeat' split
    all_goals omega

/-- Client moves, one after the other. -/
theorem loopWork_runs {m m' : CliLoop} {acts : List CliAct} (hi : CliInv m) (ha : acts.all clientMove = true)
    (hs : runs CliLoop.step m acts = some m') : acts.length + m'.work ≤ m.work ∧ CliInv m' := by
  induction acts generalizing m with
  | nil => cases hs; exact ⟨by simp, hi⟩
  | cons a acts ih =>
    simp only [List.all_cons, Bool.and_eq_true] at ha
    simp only [runs] at hs
    cases h1 : m.step a with
    | none => simp [h1] at hs
    | some m1 =>
      simp only [h1] at hs
      have hw := loopWork_step hi ha.1 h1
      obtain ⟨h2, h3⟩ := ih (cliInv_step hi h1) ha.2 hs
      exact ⟨by simp only [List.length_cons]; omega, h3⟩

/-! ## The loop and `RemoteRun` -/

theorem sameCall_refl (r : RemoteRun) : SameCallState r r := ⟨rfl, rfl, rfl⟩

theorem sig_set_same {a b : SigState} (h : SameSignal a b) (v : Signal) : SameSignal (a.set v).state (b.set v).state := by
  refine ⟨set_signal_eq h.1 v, ?_⟩
  rw [set_notified_eq, set_notified_eq]
  exact h.2

/-- Who waits for the signal makes no difference to `RemoteRun`. -/
theorem sameCall_step {r r' s' : RemoteRun} {a : RemoteAct} (h : SameCallState r r') (hs : r'.step a = some s') :
    ∃ s, r.step a = some s ∧ SameCallState s s' := by
  obtain ⟨e, hg⟩ := h
  generalize hg' : r'.sig = g at e hg
  subst e
  cases a with
  | setSignal v =>
    simp only [RemoteRun.step] at hs ⊢
    cases hs
    exact ⟨_, rfl, rfl, sig_set_same hg v⟩
  | cliSignal =>
    obtain ⟨v, k1, k2, k3, rfl⟩ := cliSignal_some hs
    simp only at k1 k2 k3
    refine ⟨{ r with sig := ⟨true, some v, r.sig.waker⟩, cli := .signalling v }, ?_, rfl, rfl, rfl⟩
    have h1 : r.sig.signal = some v := by rw [hg.1]; exact k3
    have h2 : r.sig.isNotified = false := by rw [hg.2]; exact k2
    simp [RemoteRun.step, k1, SigState.poll, h1, h2]
  | _ =>
    simp only [RemoteRun.step] at hs ⊢
    (repeat' split at hs) <;> first
      | contradiction
      | (cases hs; simp_all; exact ⟨rfl, hg⟩)

/-- The move of `RemoteRun` behind a move of the loop, if there is one. -/
theorem cli_step_remote {m m' : CliLoop} {a : CliAct} (hi : CliInv m) (hs : m.step a = some m') :
    (SameCallState m.run m'.run ∧ outsideOf a = none) ∨
      ∃ b, m.run.step b = some m'.run ∧ inCall b = true ∧ [b].filter RemoteAct.outside = [a].filterMap outsideOf := by
  have sil : ∀ x : CliLoop, m' = x → x.run = m.run → SameCallState m.run m'.run := by
    intro x h1 h2; rw [h1, h2]; exact sameCall_refl _
  cases a with
  | select order =>
    simp only [CliLoop.step] at hs
    split at hs <;> try contradiction
    split at hs <;> cases hs
    exact .inl ⟨sameCall_refl _, rfl⟩
  | park =>
    simp only [CliLoop.step] at hs
    split at hs <;> cases hs
    exact .inl ⟨sameCall_refl _, rfl⟩
  | repoll order =>
    simp only [CliLoop.step] at hs
    split at hs <;> try contradiction
    split at hs <;> cases hs
    exact .inl ⟨sameCall_refl _, rfl⟩
  | wake => cases hs; exact .inl ⟨sameCall_refl _, rfl⟩
  | break_ e =>
    cases hs
    exact .inl ⟨by rw [(notify_frame _).1]; exact sameCall_refl _, rfl⟩
  | env b =>
    simp only [CliLoop.step] at hs
    split at hs <;> try contradiction
    rename_i hb
    obtain ⟨r, hr, hs⟩ := Option.map_eq_some_iff.1 hs
    subst hs
    refine .inr ⟨b, ?_, ?_, by simp [hb, outsideOf]⟩
    · rw [CliLoop.surround, (notify_frame _).1]; exact hr
    · cases b <;> first | rfl | exact hb
  | sent ok =>
    simp only [CliLoop.step] at hs
    split at hs <;> try contradiction
    obtain ⟨r, hr, hs⟩ := Option.map_eq_some_iff.1 hs
    subst hs
    exact .inr ⟨_, hr, by cases ok <;> rfl, by cases ok <;> rfl⟩
  | check =>
    simp only [CliLoop.step] at hs
    split at hs <;> try contradiction
    obtain ⟨r, hr, hs⟩ := Option.map_eq_some_iff.1 hs
    subst hs
    exact .inr ⟨_, hr, rfl, rfl⟩
  | poll =>
    simp only [CliLoop.step] at hs
    split at hs <;> try contradiction
    rename_i b todo hp
    have hc := hi.inside (by simp [hp])
    cases b <;> simp only [CliLoop.pollBranch] at hs
    · split at hs
      · obtain ⟨r, hr, hs⟩ := Option.map_eq_some_iff.1 hs
        subst hs
        exact .inr ⟨_, hr, rfl, rfl⟩
      · split at hs <;> cases hs
        · rename_i hr
          exact .inr ⟨_, hr, rfl, rfl⟩
        · exact .inl ⟨sameCall_refl _, rfl⟩
    · split at hs <;> cases hs
      · rename_i hr
        exact .inr ⟨_, hr, rfl, rfl⟩
      · rename_i hr
        refine .inl ⟨⟨rfl, ?_⟩, rfl⟩
        rcases cliSignal_none hc hr with ⟨-, e⟩ | ⟨-, -, e⟩ <;> simp only [e] <;> exact ⟨rfl, rfl⟩

theorem sameCall_trans {a b c : RemoteRun} (h1 : SameCallState a b) (h2 : SameCallState b c) : SameCallState a c := by
  obtain ⟨e1, f1, f2⟩ := h1
  obtain ⟨e2, g1, g2⟩ := h2
  refine ⟨?_, f1.trans g1, f2.trans g2⟩
  rw [e2, e1]

theorem loop_runs_remote {m0 m : CliLoop} {acts : List CliAct} (h : CliReach m0 acts m) :
    ∃ racts r, runs RemoteRun.step m0.run racts = some r ∧ SameCallState r m.run ∧ racts.all inCall = true ∧
      racts.filter RemoteAct.outside = acts.filterMap outsideOf := by
  have hst := h.1
  have := runs_induct (P := fun acts m => CliInv m ∧ ∃ racts r, runs RemoteRun.step m0.run racts = some r ∧
    SameCallState r m.run ∧ racts.all inCall = true ∧ racts.filter RemoteAct.outside = acts.filterMap outsideOf)
    ⟨cliInv_reach (acts := []) ⟨hst, rfl⟩, [], m0.run, rfl, sameCall_refl _, rfl, rfl⟩ ?_ h.2
  · exact this.2
  · rintro acts a m m' - ⟨hi, racts, r, h1, h2, h3, h4⟩ hs
    refine ⟨cliInv_step hi hs, ?_⟩
    rcases cli_step_remote hi hs with ⟨k1, k2⟩ | ⟨b, k1, k2, k3⟩
    · refine ⟨racts, r, h1, sameCall_trans h2 k1, h3, ?_⟩
      rw [List.filterMap_append, ← h4]; simp [k2]
    · obtain ⟨s, hs1, hs2⟩ := sameCall_step h2 k1
      refine ⟨racts ++ [b], s, runs_snoc.2 ⟨r, h1, hs1⟩, hs2, by simp [h3, k2], ?_⟩
      rw [List.filterMap_append, List.filter_append, h4, k3]

/-- Where `remote_runs_loop` keeps the loop. -/
def CliLoop.Home (m : CliLoop) : Prop :=
  (m.pc = .top ∧ m.run.cli = .streaming ∧ m.broken = none) ∨
    (m.pc = .outside ∧ m.run.cli ≠ .streaming ∧ (m.broken = none ∨ m.run.cli = .checking ∨ m.run.cli = .finished))

theorem home_after {m : CliLoop} {r : RemoteRun} (h : m.broken = none) : (m.after r).Home := by
  unfold CliLoop.Home CliLoop.after
  by_cases hc : r.cli = .streaming
  · exact .inl ⟨by simp [hc], hc, h⟩
  · exact .inr ⟨by simp [hc], hc, .inl h⟩

theorem home_over {m : CliLoop} {r : RemoteRun} (h : r.cli = .checking ∨ r.cli = .finished) : (m.after r).Home := by
  have hc : r.cli ≠ .streaming := by rcases h with h | h <;> rw [h] <;> simp
  exact .inr ⟨by simp [CliLoop.after, hc], hc, .inr h⟩

theorem select_poll {m : CliLoop} {b : CliBranch} {todo : List CliBranch} (hp : m.pc = .top)
    (hb : bothBranches (b :: todo) = true) :
    runs CliLoop.step m [.select (b :: todo), .poll] = ({ m with pc := .polling (b :: todo) } : CliLoop).pollBranch todo b := by
  simp only [runs, CliLoop.step, hp, hb, if_true]
  cases ({ m with pc := .polling (b :: todo) } : CliLoop).pollBranch todo b <;> rfl

/-- One move of `RemoteRun` in the loop. -/
theorem remote_step_loop {m : CliLoop} {r : RemoteRun} {b : RemoteAct} (hm : m.Home) (hb : inCall b = true)
    (hs : m.run.step b = some r) :
    ∃ acts m', runs CliLoop.step m acts = some m' ∧ m'.Home ∧ m'.run = r ∧
      acts.filterMap outsideOf = [b].filter RemoteAct.outside := by
  by_cases ho : b.outside = true
  · refine ⟨[.env b], m.surround b r, by simp [runs, CliLoop.step, ho, hs], ?_, ?_, by simp [outsideOf, ho]⟩
    · obtain ⟨f1, f2, f3, -⟩ := notify_frame { m with run := r, woken := m.woken || b.wakesClient m.run.sig }
      have hc := (outside_frame ho hs).1
      unfold CliLoop.Home CliLoop.surround
      rw [f1, f2, f3]
      simp only [hc]
      exact hm
    · simp only [CliLoop.surround]; rw [(notify_frame _).1]
  · rcases hm with ⟨hp, hc, hbr⟩ | ⟨hp, hc, hbr⟩
    · cases b <;> simp only [inCall, RemoteAct.outside, Bool.false_eq_true, not_true_eq_false] at hb ho
      case cliNext =>
        refine ⟨[.select [.reply, .signal], .poll], ({ m with pc := .polling [.reply, .signal] } : CliLoop).after r, ?_,
          home_after hbr, rfl, rfl⟩
        rw [select_poll hp rfl]
        simp only [CliLoop.pollBranch, hbr, hs]
      case netErr e =>
        obtain ⟨f1, f2, f3, -⟩ := notify_frame { m with broken := some e }
        have hr : r.cli = .checking := by simp only [RemoteRun.step, hc, if_true] at hs; cases hs; rfl
        generalize hm1 : { m with broken := some e }.notify = m1 at f1 f2 f3
        refine ⟨[.break_ e] ++ [.select [.reply, .signal], .poll], ({ m1 with pc := .polling [.reply, .signal] } : CliLoop).after r, ?_,
          home_over (.inl hr), rfl, rfl⟩
        have h1 : runs CliLoop.step m [.break_ e] = some m1 := by rw [← hm1]; rfl
        rw [runs_append, h1, Option.bind_some, select_poll (f2.trans hp) rfl]
        simp only [CliLoop.pollBranch, f3, f1, hs, Option.map_some]
      case cliSignal =>
        refine ⟨[.select [.signal, .reply], .poll], ({ m with pc := .polling [.signal, .reply] } : CliLoop).after r, ?_,
          home_after hbr, rfl, rfl⟩
        rw [select_poll hp rfl]
        simp only [CliLoop.pollBranch, hs]
      case sigOk => simp [RemoteRun.step, hc] at hs
      case sigErr => simp [RemoteRun.step, hc] at hs
      case check => simp [RemoteRun.step, hc] at hs
    · cases b <;> simp only [inCall, RemoteAct.outside, Bool.false_eq_true, not_true_eq_false] at hb ho
      case cliNext => simp [RemoteRun.step, hc] at hs
      case netErr e => simp [RemoteRun.step, hc] at hs
      case cliSignal => simp [RemoteRun.step, hc] at hs
      case sigOk =>
        refine ⟨[.sent true], m.after r, by simp [runs, CliLoop.step, hp, hs], ?_, rfl, rfl⟩
        simp only [RemoteRun.step] at hs
        split at hs <;> try contradiction
        rename_i hv
        rw [hv] at hbr
        rcases hbr with h | h | h
        · exact home_after h
        · cases h
        · cases h
      case sigErr =>
        refine ⟨[.sent false], m.after r, by simp [runs, CliLoop.step, hp, hs], home_over ?_, rfl, rfl⟩
        simp only [RemoteRun.step] at hs
        split at hs <;> cases hs
        exact .inl rfl
      case check =>
        refine ⟨[.check], m.after r, by simp [runs, CliLoop.step, hp, hs], home_over ?_, rfl, rfl⟩
        simp only [RemoteRun.step] at hs
        split at hs <;> try contradiction
        split at hs <;> cases hs <;> exact .inr rfl

theorem remote_runs_loop {m0 : CliLoop} {r : RemoteRun} {racts : List RemoteAct} (h0 : CliStart m0)
    (hin : racts.all inCall = true) (h : runs RemoteRun.step m0.run racts = some r) :
    ∃ acts m, CliReach m0 acts m ∧ m.run = r ∧ acts.filterMap outsideOf = racts.filter RemoteAct.outside := by
  have := runs_induct (P := fun racts r => racts.all inCall = true → ∃ acts m, CliReach m0 acts m ∧ m.Home ∧ m.run = r ∧
    acts.filterMap outsideOf = racts.filter RemoteAct.outside)
    (fun _ => ⟨[], m0, ⟨h0, rfl⟩, .inl ⟨h0.pc, h0.streaming, h0.broken⟩, rfl, rfl⟩) ?_ h hin
  · obtain ⟨acts, m, h1, -, h2, h3⟩ := this
    exact ⟨acts, m, h1, h2, h3⟩
  · intro racts b r r' _ ih hs hin
    rw [List.all_append, Bool.and_eq_true] at hin
    obtain ⟨acts, m, h1, h2, rfl, h4⟩ := ih hin.1
    obtain ⟨acts', m', k1, k2, k3, k4⟩ := remote_step_loop h2 (by simpa using hin.2) hs
    refine ⟨acts ++ acts', m', ⟨h0, ?_⟩, k2, k3, ?_⟩
    · rw [runs_append, h1.2]; exact k1
    · rw [List.filterMap_append, List.filter_append, h4, k4]

end AstroRun
