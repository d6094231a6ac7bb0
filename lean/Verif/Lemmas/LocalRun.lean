import Verif.Spec.LocalRun
import Verif.Lemmas.Run

/-! # Invariants of the execution of a step by the local runner -/

namespace AstroRun
open Spec

/-! ## Streams -/

theorem endSeq_result_none {s : StreamState} (h : s.result = none) (r : RunResult) :
    (s.endSeq r).1.result = some r := by
  simp [StreamState.endSeq, StreamState.isEnded, StreamState.endWrite, h]

theorem endSeq_result_some {s : StreamState} {r0 : RunResult} (h : s.result = some r0) (r : RunResult) :
    (s.endSeq r).1 = s := by
  simp [StreamState.endSeq, StreamState.isEnded, h]

theorem endSeq_logs_eq (s : StreamState) (r : RunResult) : (s.endSeq r).1.logs = s.logs := by
  simp only [StreamState.endSeq]
  split <;> rfl

/-! ## The result -/

/-- What the result is, by where the task is. -/
def ResOk (m : LocalRun) : Prop :=
  match m.pc with
  | .start | .mkdir | .entry | .select .notStarted | .select .reading | .select .waiting =>
    m.stream.result = none ∧ m.exitSeen = none ∧ m.sigSeen = none
  | .select .okDone => ∃ c, m.exitSeen = some c ∧ m.stream.result = some (exitResult c) ∧ m.sigSeen = none
  | .kill v => m.sigSeen = some v ∧ m.stream.result = m.exitSeen.map exitResult
  | .remove | .returned =>
    m.stream.result = match m.exitSeen, m.sigSeen with
      | some c, _ => some (exitResult c)
      | none, some v => some (signalResult v)
      | none, none => none
  | .hooks _ | .done =>
    m.stream.result = some (match m.exitSeen, m.sigSeen with
      | some c, _ => exitResult c
      | none, some v => signalResult v
      | none, none => .failed 1)

theorem ResOk.step {m m' : LocalRun} {a : LocalAct} (h : ResOk m) (hs : m.step a = some m') : ResOk m' := by
  cases a <;> simp only [LocalRun.step] at hs
  case prepErr =>
    split at hs <;> simp only [Option.some.injEq, reduceCtorEq] at hs
    rename_i hpc; subst hs
    simp only [ResOk, hpc.1] at h ⊢
    simp [h]
  case begin_ =>
    split at hs
    · rename_i hpc
      simp only [ResOk, hpc] at h
      split at hs <;> simp only [Option.some.injEq] at hs <;> subst hs <;> simp [ResOk, h]
    · simp at hs
  case mkdirOk =>
    split at hs <;> simp only [Option.some.injEq, reduceCtorEq] at hs
    rename_i hpc; subst hs
    simp only [ResOk, hpc] at h ⊢
    cases m.kind <;> simp [h]
  case mkdirErr | entryErr | spawnErr | waitErr =>
    split at hs <;> simp only [Option.some.injEq, reduceCtorEq] at hs
    rename_i hpc; subst hs
    simp only [ResOk, hpc] at h ⊢
    simp [h]
  case entryOk | spawnOk | removeOk | removeErr =>
    split at hs <;> simp only [Option.some.injEq, reduceCtorEq] at hs
    rename_i hpc; subst hs
    simp only [ResOk, hpc] at h ⊢
    exact h
  case readOut =>
    split at hs
    · rename_i hpc
      simp only [ResOk, hpc] at h
      split at hs
      · split at hs
        · simp only [Option.some.injEq] at hs; subst hs
          simpa [ResOk, hpc, StreamState.log, StreamState.push] using h
        · split at hs <;> simp only [Option.some.injEq, reduceCtorEq] at hs
          subst hs
          simpa [ResOk] using h
      · simp at hs
    · simp at hs
  case readErr =>
    split at hs
    · rename_i hpc
      simp only [ResOk, hpc] at h
      split at hs
      · split at hs
        · simp only [Option.some.injEq] at hs; subst hs
          simpa [ResOk, hpc, StreamState.error, StreamState.push] using h
        · split at hs <;> simp only [Option.some.injEq, reduceCtorEq] at hs
          subst hs
          simpa [ResOk] using h
      · simp at hs
    · simp at hs
  case readOutFail | readErrFail =>
    split at hs <;> simp only [Option.some.injEq, reduceCtorEq] at hs
    rename_i hpc; subst hs
    simp only [ResOk, hpc] at h
    simpa [ResOk, StreamState.error, StreamState.push] using h
  case waitOk =>
    split at hs
    · rename_i hpc
      simp only [ResOk, hpc] at h
      split at hs
      · rename_i code _
        simp only [Option.some.injEq] at hs; subst hs
        exact ⟨code, rfl, endSeq_result_none h.1 _, h.2.2⟩
      · simp at hs
    · simp at hs
  case sigReady =>
    split at hs
    · rename_i c hpc
      split at hs
      · rename_i sg v _
        have hr : m.stream.result = m.exitSeen.map exitResult := by
          cases c <;> simp only [ResOk, hpc] at h
          · simp [h]
          · simp [h]
          · simp [h]
          · obtain ⟨c, h1, h2, _⟩ := h; simp [h1, h2]
        split at hs <;> simp only [Option.some.injEq] at hs <;> subst hs
        · exact ⟨rfl, hr⟩
        · simp only [ResOk]
          cases he : m.exitSeen with
          | none => simp only; exact endSeq_result_none (by rw [hr, he]; rfl) _
          | some c =>
            simp only
            rw [endSeq_result_some (r0 := exitResult c) (by rw [hr, he]; rfl), hr, he]
            rfl
      · simp at hs
    · simp at hs
  case killDone =>
    split at hs
    · rename_i v hpc
      simp only [ResOk, hpc] at h
      simp only [Option.some.injEq] at hs; subst hs
      simp only [ResOk, h.1]
      cases he : m.exitSeen with
      | none => simp only; exact endSeq_result_none (by rw [h.2, he]; rfl) _
      | some c =>
        simp only
        rw [endSeq_result_some (r0 := exitResult c) (by rw [h.2, he]; rfl), h.2, he]
        rfl
    · simp at hs
  case finish =>
    split at hs <;> simp only [Option.some.injEq, reduceCtorEq] at hs
    rename_i hpc; subst hs
    simp only [ResOk, hpc] at h ⊢
    cases he : m.exitSeen with
    | some c =>
      simp only [he] at h
      simp [StreamState.isEnded, h]
    | none =>
      cases hv : m.sigSeen with
      | some v =>
        simp only [he, hv] at h
        simp [StreamState.isEnded, h]
      | none =>
        simp only [he, hv] at h
        simp [StreamState.isEnded, h, endSeq_result_none h]
  case hook =>
    split at hs
    · rename_i n hpc
      simp only [ResOk, hpc] at h
      split at hs <;> simp only [Option.some.injEq] at hs <;> subst hs <;> exact h
    · simp at hs
  case childOut | childErr | exit =>
    split at hs
    · split at hs <;> simp only [Option.some.injEq, reduceCtorEq] at hs
      subst hs; exact h
    · simp at hs
  case closeOut | closeErr =>
    split at hs <;> simp only [Option.some.injEq, reduceCtorEq] at hs
    subst hs; exact h
  case setSignal =>
    simp only [Option.some.injEq] at hs; subst hs; exact h

/-! ## The process and its output -/

/-- The task is killing the container. -/
def isKill : LocalPc → Bool
  | .kill _ => true
  | _ => false

/-- What is known about the process, its output, the signal and the directory. -/
structure OutOk (p : RunPlan) (plugins : Nat) (m : LocalRun) : Prop where
  kind : m.kind = p.kind
  name : m.name = p.dirs.dockerName
  plugins : m.plugins = plugins
  outs : outLines m.stream.logs ++ unreadOut m = m.outWritten
  errs : ∃ read, errLines m.stream.logs = read ++ m.ioErr.toList ∧ read ++ unreadErr m = m.errWritten
  /-- before the process is started there is none -/
  early : m.pc = .start ∨ m.pc = .mkdir ∨ m.pc = .entry ∨ m.pc = .select .notStarted → m.child = none ∧ m.ioErr = none
  /-- the reader runs only with a process -/
  late : m.pc = .select .reading ∨ m.pc = .select .waiting → ∃ ch, m.child = some ch
  /-- no more reading because of an error, or one of the pipes being at its end -/
  stopped : m.pc = .select .waiting ∨ m.exitSeen.isSome = true → m.ioErr.isSome = true ∨
    ∃ ch, m.child = some ch ∧ ((ch.outQ = [] ∧ ch.outOpen = false) ∨ (ch.errQ = [] ∧ ch.errOpen = false))
  noErrYet : m.pc = .select .reading → m.ioErr = none
  exitOk : ∀ c, m.exitSeen = some c → ∃ ch, m.child = some ch ∧ ch.exit = some c
  sigOk : ∀ v, m.sigSeen = some v → m.sig.signal = some v
  fresh : m.sig.isNotified = m.sigSeen.isSome
  untouched : m.touched = false → m.child = none ∧ m.dirThere = false ∧
    (m.pc = .start ∨ m.pc = .mkdir ∨ m.pc = .returned ∨ (∃ n, m.pc = .hooks n) ∨ m.pc = .done)
  calls : m.afterCalls = match m.pc with
    | .hooks n => n
    | .done => m.plugins
    | _ => 0
  callsLe : m.afterCalls ≤ m.plugins
  afterExit : m.exitSeen.isSome = true → m.sigSeen = none → m.pc = .select .okDone
  dir : m.pc = .entry ∨ (∃ c, m.pc = .select c) ∨ isKill m.pc = true ∨ m.pc = .remove → m.dirThere = true
  killDocker : isKill m.pc = true → m.kind = .docker
  killed : m.kills = if m.kind = .docker ∧ m.sigSeen.isSome = true ∧ isKill m.pc = false
    then ["docker kill " ++ m.name] else []

theorem outLines_append (a b : List Log) : outLines (a ++ b) = outLines a ++ outLines b := by
  simp [outLines]

theorem errLines_append (a b : List Log) : errLines (a ++ b) = errLines a ++ errLines b := by
  simp [errLines]

theorem push_logs_eq (s : StreamState) (l : Log) : (s.push l).1.logs = s.logs ++ [l] := rfl

theorem OutOk.initial (p : RunPlan) (plugins : Nat) : OutOk p plugins (LocalRun.initial p plugins) := by
  constructor <;> simp [LocalRun.initial, outLines, errLines, unreadOut, unreadErr, isKill]

set_option maxHeartbeats 1000000 in
theorem OutOk.step_own {p : RunPlan} {plugins : Nat} {m m' : LocalRun} {a : LocalAct} (h : OutOk p plugins m)
    (hr : ResOk m) (ho : a.own = true) (hs : m.step a = some m') : OutOk p plugins m' := by
  obtain ⟨h1, h2, h3, h4, h5, h6, h7, h8, h9, h10, h11, h12, h13, h14, h15, h18, h19, h17, h16⟩ := h
  cases a <;> simp only [LocalRun.step] at hs
  case prepErr | mkdirErr | entryOk | entryErr | spawnErr | waitErr | removeOk | removeErr =>
    split at hs <;> simp only [Option.some.injEq, reduceCtorEq] at hs
    rename_i hpc; subst hs
    constructor <;> first | assumption | simp_all [isKill]
  case begin_ =>
    split at hs
    · rename_i hpc
      split at hs <;> simp only [Option.some.injEq] at hs <;> subst hs <;>
        constructor <;> first | assumption | simp_all [isKill]
    · simp at hs
  case mkdirOk =>
    split at hs <;> simp only [Option.some.injEq, reduceCtorEq] at hs
    rename_i hpc; subst hs
    constructor <;> first | assumption | (cases hk : m.kind <;> simp_all [isKill])
  case spawnOk =>
    split at hs <;> simp only [Option.some.injEq, reduceCtorEq] at hs
    rename_i hpc; subst hs
    simp only [ResOk, hpc] at hr
    have hc := h6 (by simp [hpc])
    constructor <;> first | assumption | simp_all [isKill, unreadOut, unreadErr]
  case readOut =>
    split at hs
    · rename_i hpc
      simp only [ResOk, hpc] at hr
      split at hs
      · rename_i ch hch
        split at hs
        · rename_i l rest hq
          simp only [Option.some.injEq] at hs; subst hs
          constructor <;> first | assumption | simp_all [isKill, unreadOut, unreadErr, StreamState.log, StreamState.push,
            outLines, errLines, Log.ofLog, Log.isError]
        · rename_i hq
          split at hs <;> simp only [Option.some.injEq, reduceCtorEq] at hs
          subst hs
          constructor <;> first | assumption | simp_all [isKill]
      · simp at hs
    · simp at hs
  case readErr =>
    split at hs
    · rename_i hpc
      simp only [ResOk, hpc] at hr
      split at hs
      · rename_i ch hch
        split at hs
        · rename_i l rest hq
          simp only [Option.some.injEq] at hs; subst hs
          constructor <;> first | assumption | simp_all [isKill, unreadOut, unreadErr, StreamState.error, StreamState.push,
            outLines, errLines, Log.ofError, Log.isError]
        · rename_i hq
          split at hs <;> simp only [Option.some.injEq, reduceCtorEq] at hs
          subst hs
          constructor <;> first | assumption | simp_all [isKill]
      · simp at hs
    · simp at hs
  case readOutFail e | readErrFail e =>
    split at hs <;> simp only [Option.some.injEq, reduceCtorEq] at hs
    rename_i hpc; subst hs
    simp only [ResOk, hpc] at hr
    have h9 := h9 hpc
    constructor <;> first | assumption | simp_all [isKill, unreadOut, unreadErr, StreamState.error, StreamState.push,
            outLines, errLines, Log.ofError, Log.isError]
  case waitOk =>
    split at hs
    · rename_i hpc
      simp only [ResOk, hpc] at hr
      split at hs
      · rename_i code hcode
        simp only [Option.some.injEq] at hs; subst hs
        obtain ⟨ch, hch⟩ := h7 (.inr hpc)
        constructor <;> first | assumption | simp_all [isKill, endSeq_logs_eq, unreadOut, unreadErr]
      · simp at hs
    · simp at hs
  case sigReady =>
    split at hs
    · rename_i c hpc
      split at hs
      · rename_i sg v hpoll
        have hsg : sg.signal = some v ∧ sg.isNotified = true := by
          simp only [SigState.poll] at hpoll
          split at hpoll
          · simp at hpoll
          · split at hpoll <;> simp only [Prod.mk.injEq, reduceCtorEq, and_false, Option.some.injEq] at hpoll
            rename_i w hw
            obtain ⟨h1, h2⟩ := hpoll
            subst h1 h2
            exact ⟨hw, rfl⟩
        have hsn : m.sigSeen = none := by
          cases c <;> simp only [ResOk, hpc] at hr
          · exact hr.2.2
          · exact hr.2.2
          · exact hr.2.2
          · obtain ⟨_, _, _, h⟩ := hr; exact h
        split at hs <;> rename_i hk <;> simp only [Option.some.injEq] at hs <;> subst hs <;>
          constructor <;> first | assumption | simp_all [isKill, endSeq_logs_eq, unreadOut, unreadErr] <;> simp [← h1]
      · simp at hs
    · simp at hs
  case killDone =>
    split at hs
    · rename_i v hpc
      simp only [ResOk, hpc] at hr
      simp only [Option.some.injEq] at hs; subst hs
      constructor <;> first | assumption | simp_all [isKill, endSeq_logs_eq, unreadOut, unreadErr]
    · simp at hs
  case finish =>
    split at hs <;> simp only [Option.some.injEq, reduceCtorEq] at hs
    rename_i hpc; subst hs
    have hl : (if m.stream.isEnded = true then m.stream else (m.stream.endSeq (.failed 1)).1).logs = m.stream.logs := by
      split
      · rfl
      · exact endSeq_logs_eq _ _
    constructor <;> first | assumption | simp_all [isKill, unreadOut, unreadErr]
  case hook =>
    split at hs
    · rename_i n hpc
      simp only [ResOk, hpc] at hr
      split at hs <;> simp only [Option.some.injEq] at hs <;> subst hs <;>
        constructor <;> first | assumption | simp_all [isKill, unreadOut, unreadErr] <;> omega
    · simp at hs
  all_goals simp [LocalAct.own] at ho

set_option maxHeartbeats 1000000 in
theorem OutOk.step_env {p : RunPlan} {plugins : Nat} {m m' : LocalRun} {a : LocalAct} (h : OutOk p plugins m)
    (ho : a.own = false) (hs : m.step a = some m') : OutOk p plugins m' := by
  obtain ⟨h1, h2, h3, h4, h5, h6, h7, h8, h9, h10, h11, h12, h13, h14, h15, h18, h19, h17, h16⟩ := h
  cases a <;> simp only [LocalAct.own, reduceCtorEq] at ho <;> simp only [LocalRun.step] at hs
  case childOut l =>
    split at hs
    · rename_i ch hch
      split at hs <;> simp only [Option.some.injEq, reduceCtorEq] at hs
      rename_i ho
      subst hs
      constructor <;> first | assumption | simp_all [isKill, unreadOut, unreadErr]
      rw [← h4]; simp
    · simp at hs
  case childErr l =>
    split at hs
    · rename_i ch hch
      split at hs <;> simp only [Option.some.injEq, reduceCtorEq] at hs
      rename_i ho
      subst hs
      constructor <;> first | assumption | simp_all [isKill, unreadOut, unreadErr]
      obtain ⟨r, hr1, hr2⟩ := h5
      exact ⟨r, hr1, by rw [← hr2]; simp⟩
    · simp at hs
  case exit c =>
    split at hs
    · rename_i ch hch
      split at hs <;> simp only [Option.some.injEq, reduceCtorEq] at hs
      rename_i ho
      subst hs
      constructor <;> first | assumption | simp_all [isKill, unreadOut, unreadErr]
    · simp at hs
  case closeOut | closeErr =>
    split at hs <;> simp only [Option.some.injEq, reduceCtorEq] at hs
    rename_i ch hch
    subst hs
    constructor <;> first | assumption | simp_all [isKill, unreadOut, unreadErr] <;>
      (intro hx; rcases h8 hx with h | h | h <;> simp [h])
  case setSignal v =>
    simp only [Option.some.injEq] at hs; subst hs
    have e1 : (m.sig.set v).state.isNotified = m.sig.isNotified := by
      simp only [SigState.set]; split <;> rfl
    have e2 : ∀ w, m.sig.signal = some w → (m.sig.set v).state.signal = some w := by
      intro w hw
      simp [SigState.set, hw]
    constructor <;> first
      | assumption
      | exact fun w hw => e2 w (h11 w hw)
      | exact e1.trans h12

theorem OutOk.step {p : RunPlan} {plugins : Nat} {m m' : LocalRun} {a : LocalAct} (h : OutOk p plugins m)
    (hr : ResOk m) (hs : m.step a = some m') : OutOk p plugins m' := by
  cases ho : a.own
  · exact h.step_env ho hs
  · exact h.step_own hr ho hs

theorem local_reach {p : RunPlan} {plugins : Nat} {acts : List LocalAct} {m : LocalRun}
    (h : LocalReach p plugins acts m) : ResOk m ∧ OutOk p plugins m := by
  refine runs_induct (P := fun _ m => ResOk m ∧ OutOk p plugins m) ⟨by simp [ResOk, LocalRun.initial], OutOk.initial p plugins⟩ ?_ h
  intro _ a s s' _ hi hs
  exact ⟨hi.1.step hs, hi.2.step hi.1 hs⟩

end AstroRun
